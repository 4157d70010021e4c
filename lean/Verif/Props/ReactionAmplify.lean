import Verif.Lemmas.ReactionAmplify
import Verif.Props.ReactionLwe

/-! # C108, C109, C110: what the server of the amplified LWE client can find out and achieve -/

namespace Verif.Lwe
open Res Verif.Matrix Verif.Privacy Verif.Reaction Finset Verif.Lwe.Spec Verif.Several

variable {Ω T : Type} [Fintype Ω] [Fintype T] {n : Nat}

/-! ### C108 -/

theorem sentAll_eq (aesctr : List Byte → Nat → Byte) (p : Params) (hB : 0 < p.b.toNat) (nc : Nat) (dg : Mat 32)
    (hf : FitsInt 1 p.n p.l) (coins : Fin n → Coins) (hlen : ∀ k, (coins k).noise.length = p.l)
    (hno : ∀ k, ∀ g ∈ (coins k).noise, |g| ≤ 128) (index : Nat) (hi : index < p.l * nc) :
    sentAll aesctr p nc dg index (List.ofFn coins) = rowsMessage (fun k => sent aesctr p (index / nc) (coins k)) := by
  have hnc : 0 < nc := by
    rcases Nat.eq_zero_or_pos nc with h | h
    · rw [h] at hi; omega
    · exact h
  have hrow : index / nc < p.l := by
    rw [Nat.div_lt_iff_lt_mul hnc]; exact hi
  have h := mapM_ofFn (n := n) (f := fun c => query lwe32 aesctr p dg c (index / nc) (index % nc)) (g := coins) (fun k => query_row aesctr p (good32 p.b hB) dg (coins k) (index / nc)
    (index % nc) hf (hlen k) (hno k) hrow)
  unfold sentAll amplifyQueryBytes amplifyQuery rowsMessage
  rw [if_neg (by omega), h, ok_bind, List.map_ofFn, List.map_ofFn]
  show ((matricesToBytes _ >>= fun b => ok (_, b)) >>= fun r : List (State 32) × List Byte => ok r.2) = _
  have e : (List.ofFn (Prod.snd ∘ fun k => ((⟨seedMatrix aesctr 32 lwe32.k p.seedA p.n p.l, dg,
      ofRandom 32 lwe32.k 1 p.n (coins k).sBytes, index / nc, index % nc, coinT lwe32 (coins k)⟩ : State 32),
      (⟨1, p.l, List.ofFn (shifted (secretVector lwe32 aesctr p id (coins k).sBytes (coins k).noise) (index / nc)
        (wordAt 32 lwe32.k (coins k).tBytes 0))⟩ : Mat 32)))) =
      List.ofFn (fun k => (⟨1, p.l, List.ofFn (sent aesctr p (index / nc) (coins k))⟩ : Mat 32)) := rfl
  rw [e]
  cases matricesToBytes (List.ofFn (fun k => (⟨1, p.l, List.ofFn (sent aesctr p (index / nc) (coins k))⟩ : Mat 32))) <;> rfl

/-- C108: whatever the digest and the number of columns, the message of an amplified query for one index cannot be told from
that for another, except by solving one of the `2n` instances of the LWE problem with a single vector that are made from
the test. -/
theorem C108_query_hides [Nonempty Ω] (aesctr : List Byte → Nat → Byte) (p : Params) (hB : 0 < p.b.toNat) (nc : Nat)
    (dg : Mat 32) (hf : FitsInt 1 p.n p.l) (tB : T → List Byte) (sB : Ω → List Byte) (noise : Ω → List Int)
    (hlen : ∀ ω, (noise ω).length = p.l) (hno : ∀ ω, ∀ g ∈ noise ω, |g| ≤ 128) (i i' : Nat) (hi : i < p.l * nc)
    (hi' : i' < p.l * nc) (D : Res (List Byte) → ℚ) :
    advantage (fun x : (Fin n → T) × (Fin n → Ω) => sentAll aesctr p nc dg i (coinsAll tB sB noise x))
        (fun x : (Fin n → T) × (Fin n → Ω) => sentAll aesctr p nc dg i' (coinsAll tB sB noise x)) D ≤
      lweGaps (fun ω => secretVector lwe32 aesctr p id (sB ω) (noise ω))
        (rowsTest (n := n) (fun τ => wordAt 32 4 (tB τ) 0) (i / nc) D) +
      lweGaps (fun ω => secretVector lwe32 aesctr p id (sB ω) (noise ω))
        (rowsTest (n := n) (fun τ => wordAt 32 4 (tB τ) 0) (i' / nc) D) := by
  have one : ∀ m, m < p.l * nc →
      |avg (fun x : (Fin n → T) × (Fin n → Ω) => D (sentAll aesctr p nc dg m (coinsAll tB sB noise x))) -
        avg (fun x : (Fin n → T) × (Fin n → Fin p.l → U32) => D (rowsMessage x.2))| ≤
      lweGaps (fun ω => secretVector lwe32 aesctr p id (sB ω) (noise ω))
        (rowsTest (n := n) (fun τ => wordAt 32 4 (tB τ) 0) (m / nc) D) := by
    intro m hm
    refine le_trans (le_of_eq ?_) (hop_all (n := n) (fun ω => secretVector lwe32 aesctr p id (sB ω) (noise ω)) (m / nc)
      (fun τ => wordAt 32 4 (tB τ) 0) (fun v _ => D (rowsMessage v)))
    congr 2
    refine avg_congr fun x => ?_
    unfold coinsAll
    rw [sentAll_eq aesctr p hB nc dg hf _ (fun k => hlen _) (fun k => hno _) m hm]
    rfl
  have h := one i hi
  have h' := one i' hi'
  rw [abs_sub_comm] at h'
  exact close_trans h h'

/-! ### C109 -/

/-- C109: whatever the server answers, it cannot tell two indices apart by the message and the way the amplified client ends,
except by solving explicit instances of the LWE problem (some of which use the noise to compare the answers with the honest
ones), by guessing one of the multipliers up to `2 B`, or when the noise of a repetition is too large. -/
theorem C109_reaction_hides [Nonempty Ω] [Nonempty T] (hn : 0 < n) (aesctr : List Byte → Nat → Byte) (p : Params)
    (hB : 0 < p.b.toNat) (db : Db 32) (tB : T → List Byte) (sB : Ω → List Byte) (noise : Ω → List Int)
    (hs : ∀ τ ω, Setup lwe32 aesctr p db ⟨tB τ, sB ω, noise ω⟩) (F : List Byte → Res (List Byte)) (ε : ℚ)
    (hε : Spread (fun τ => wordAt 32 4 (tB τ) 0) ε) (i i' : Nat) (hi : i < db.numRows * db.numColumns)
    (hi' : i' < db.numRows * db.numColumns) (D : Res (List Byte) × Res Unit → ℚ) (hD : IsTest D) :
    advantage (fun x : (Fin n → T) × (Fin n → Ω) => viewAll aesctr p db F i (coinsAll tB sB noise x))
        (fun x : (Fin n → T) × (Fin n → Ω) => viewAll aesctr p db F i' (coinsAll tB sB noise x)) D ≤
      hintGaps (fun ω => secretVector lwe32 aesctr p id (sB ω) (noise ω))
        (fun ω => tolerance lwe32 p.b db (fun r => (noise ω).getD r 0))
        (seeAllTest (n := n) db F (fun τ => wordAt 32 4 (tB τ) 0) (i / db.numColumns) D) +
      hintGaps (fun ω => secretVector lwe32 aesctr p id (sB ω) (noise ω))
        (fun ω => tolerance lwe32 p.b db (fun r => (noise ω).getD r 0))
        (seeAllTest (n := n) db F (fun τ => wordAt 32 4 (tB τ) 0) (i' / db.numColumns) D) +
      lweGaps (fun ω => secretVector lwe32 aesctr p id (sB ω) (noise ω))
        (oneTest (n := n) db F ((2 * p.b.toNat - 2 : Nat) : Int) (range db.numColumns) (fun τ => wordAt 32 4 (tB τ) 0)
          (i / db.numColumns)) +
      lweGaps (fun ω => secretVector lwe32 aesctr p id (sB ω) (noise ω))
        (oneTest (n := n) db F ((2 * p.b.toNat - 2 : Nat) : Int) (range db.numColumns) (fun τ => wordAt 32 4 (tB τ) 0)
          (i' / db.numColumns)) +
      2 * n * avg (fun ω => indicator (Overflow (p.b.toNat - 1) (p.b.toNat - 1) id db (range db.numColumns) (noise ω))) +
      2 * n * (db.numColumns * (2 * (2 * (2 * p.b.toNat - 2 : Nat) + 1) * ε)) := by
  have one : ∀ m : Nat, m < db.numRows * db.numColumns →
      |avg (fun x : (Fin n → T) × (Fin n → Ω) => D (viewAll aesctr p db F m (coinsAll tB sB noise x))) -
        avg (fun x : (Fin n → T) × (Fin n → (Fin p.l → U32) × Ω) => D (rowsMessage (fun k => (x.2 k).1),
          expectedAll db F (fun k => (x.2 k).1)
            (fun k => tolerance lwe32 p.b db (fun r => (noise (x.2 k).2).getD r 0))))| ≤
      (n * avg (fun ω => indicator (Overflow (p.b.toNat - 1) (p.b.toNat - 1) id db (range db.numColumns) (noise ω))) +
      (lweGaps (fun ω => secretVector lwe32 aesctr p id (sB ω) (noise ω))
        (oneTest (n := n) db F ((2 * p.b.toNat - 2 : Nat) : Int) (range db.numColumns) (fun τ => wordAt 32 4 (tB τ) 0)
          (m / db.numColumns)) +
        n * (db.numColumns * (2 * (2 * (2 * p.b.toNat - 2 : Nat) + 1) * ε)))) +
      hintGaps (fun ω => secretVector lwe32 aesctr p id (sB ω) (noise ω))
        (fun ω => tolerance lwe32 p.b db (fun r => (noise ω).getD r 0))
        (seeAllTest (n := n) db F (fun τ => wordAt 32 4 (tB τ) 0) (m / db.numColumns) D) := by
    intro m hm
    let v : Ω → Fin p.l → U32 := fun ω => secretVector lwe32 aesctr p id (sB ω) (noise ω)
    let t : T → U32 := fun τ => wordAt 32 4 (tB τ) 0
    let near : Ω → Nat → U32 → Bool := fun ω => tolerance lwe32 p.b db (fun r => (noise ω).getD r 0)
    have h1 := avg_switch (f := fun x : (Fin n → T) × (Fin n → Ω) => D (viewAll aesctr p db F m (coinsAll tB sB noise x)))
      (f' := fun x : (Fin n → T) × (Fin n → Ω) => D (rowsMessage (shiftedAll t (m / db.numColumns) (fun k => v (x.2 k)) x.1),
        expectedAll db F (shiftedAll t (m / db.numColumns) (fun k => v (x.2 k)) x.1) (fun k => near (x.2 k))))
      (E := fun x : (Fin n → T) × (Fin n → Ω) =>
        (∃ k ∈ (univ : Finset (Fin n)),
          Overflow (p.b.toNat - 1) (p.b.toNat - 1) id db (range db.numColumns) (noise (x.2 k))) ∨
        HitsOne db F ((2 * p.b.toNat - 2 : Nat) : Int) (range db.numColumns)
          (shiftedAll t (m / db.numColumns) (fun k => v (x.2 k)) x.1) (fun k => t (x.1 k))) (fun x => hD _) (fun x => hD _) (by
        intro x hx
        rw [not_or] at hx
        have := viewAll_eq aesctr p hB db hn (fun k => ⟨tB (x.1 k), sB (x.2 k), noise (x.2 k)⟩) (fun k => hs _ _) F m hm
          hx.2 (fun k hk => hx.1 ⟨k, mem_univ _, hk⟩)
        exact congrArg D this)
    have h2 : avg (fun x : (Fin n → T) × (Fin n → Ω) => indicator (
        (∃ k ∈ (univ : Finset (Fin n)),
          Overflow (p.b.toNat - 1) (p.b.toNat - 1) id db (range db.numColumns) (noise (x.2 k))) ∨
        HitsOne db F ((2 * p.b.toNat - 2 : Nat) : Int) (range db.numColumns)
          (shiftedAll t (m / db.numColumns) (fun k => v (x.2 k)) x.1) (fun k => t (x.1 k)))) ≤
        n * avg (fun ω => indicator (Overflow (p.b.toNat - 1) (p.b.toNat - 1) id db (range db.numColumns) (noise ω))) +
        (lweGaps v (oneTest (n := n) db F ((2 * p.b.toNat - 2 : Nat) : Int) (range db.numColumns) t (m / db.numColumns)) +
          n * (db.numColumns * (2 * (2 * (2 * p.b.toNat - 2 : Nat) + 1) * ε))) := by
      refine le_trans (avg_mono (fun x => indicator_or _ _)) ?_
      rw [← avg_add]
      refine add_le_add ?_ ?_
      · refine le_trans (avg_mono (fun x => indicator_exists univ (fun k => Overflow (p.b.toNat - 1) (p.b.toNat - 1) id db
          (range db.numColumns) (noise (x.2 k))))) ?_
        rw [avg_sum]
        refine le_trans (Finset.sum_le_card_nsmul univ _ (avg (fun ω => indicator (Overflow (p.b.toNat - 1) (p.b.toNat - 1)
          id db (range db.numColumns) (noise ω)))) (fun k _ => ?_)) ?_
        · exact le_of_eq (avg_one_of k (fun ω => indicator (Overflow (p.b.toNat - 1) (p.b.toNat - 1) id db
            (range db.numColumns) (noise ω))))
        · rw [card_univ, Fintype.card_fin, nsmul_eq_mul]
      · have h := le_of_abs_sub (hop_all (n := n) v (m / db.numColumns) t (fun u τ => indicator (HitsOne db F
          ((2 * p.b.toNat - 2 : Nat) : Int) (range db.numColumns) u (fun k => t (τ k)))))
        have hu := hitsOne_uniform (n := n) (l := p.l) db F (2 * p.b.toNat - 2) (range db.numColumns) t ε hε
        rw [card_range] at hu
        refine le_trans h ?_
        rw [add_comm]
        exact add_le_add le_rfl hu
    have h3 := hop_all_hint (n := n) v near (m / db.numColumns) t (fun u nr => D (rowsMessage u, expectedAll db F u nr))
    exact close_trans (le_trans h1 h2) h3
  have h := one i hi
  have h' := one i' hi'
  rw [abs_sub_comm] at h'
  have := close_trans h h'
  unfold advantage
  linarith

/-! ### C110 -/

/-- C110: whatever the server answers, the amplified client takes a wrong bit only if the server solves one of `2r+1` explicit
instances of the LWE problem, guesses the multipliers of the first and of `r` more repetitions up to `2 B`, or the noise of
a repetition is too large. -/
theorem C110_wrong_bit [Nonempty Ω] [Nonempty T] {r : Nat} (aesctr : List Byte → Nat → Byte) (p : Params)
    (hB : 0 < p.b.toNat) (db : Db 32) (tB : T → List Byte) (sB : Ω → List Byte) (noise : Ω → List Int)
    (hs : ∀ τ ω, Setup lwe32 aesctr p db ⟨tB τ, sB ω, noise ω⟩) (F : List Byte → Res (List Byte)) (ε : ℚ)
    (hε : Spread (fun τ => wordAt 32 4 (tB τ) 0) ε) (i : Nat) (hi : i < db.numRows * db.numColumns) :
    avg (fun x : (Fin (2 * r + 1) → T) × (Fin (2 * r + 1) → Ω) => indicator (∃ b,
      amplifyRetrieve aesctr p db.numColumns db.digest (coinsAll tB sB noise x) i F = ok b ∧
      b ≠ BitVec.ofNat 32 (storedBit db.matrix (i / db.numColumns) (i % db.numColumns)))) ≤
      lweGaps (fun ω => secretVector lwe32 aesctr p id (sB ω) (noise ω))
        (mostTest (r := r) db F ((2 * p.b.toNat - 2 : Nat) : Int) {i % db.numColumns} (fun τ => wordAt 32 4 (tB τ) 0)
          (i / db.numColumns)) +
      (2 * r + 1) * avg (fun ω => indicator (Overflow (p.b.toNat - 1) (p.b.toNat - 1) id db {i % db.numColumns} (noise ω))) +
      (2 * r).choose r * (2 * (2 * (2 * p.b.toNat - 2 : Nat) + 1) * ε) ^ (r + 1) := by
  let v : Ω → Fin p.l → U32 := fun ω => secretVector lwe32 aesctr p id (sB ω) (noise ω)
  let t : T → U32 := fun τ => wordAt 32 4 (tB τ) 0
  have key : ∀ x : (Fin (2 * r + 1) → T) × (Fin (2 * r + 1) → Ω), indicator (∃ b,
      amplifyRetrieve aesctr p db.numColumns db.digest (coinsAll tB sB noise x) i F = ok b ∧
      b ≠ BitVec.ofNat 32 (storedBit db.matrix (i / db.numColumns) (i % db.numColumns))) ≤
      (∑ k ∈ univ, indicator (Overflow (p.b.toNat - 1) (p.b.toNat - 1) id db {i % db.numColumns} (noise (x.2 k)))) +
      indicator (HitsMost db F ((2 * p.b.toNat - 2 : Nat) : Int) {i % db.numColumns}
        (shiftedAll t (i / db.numColumns) (fun k => v (x.2 k)) x.1) (fun k => t (x.1 k))) := by
    intro x
    refine le_trans (le_trans (indicator_mono ?_) (indicator_or (∃ k ∈ (univ : Finset (Fin (2 * r + 1))),
      Overflow (p.b.toNat - 1) (p.b.toNat - 1) id db {i % db.numColumns} (noise (x.2 k))) _))
      (add_le_add (indicator_exists univ _) le_rfl)
    rintro ⟨b, hr, hne⟩
    by_cases hov : ∃ k ∈ (univ : Finset (Fin (2 * r + 1))),
      Overflow (p.b.toNat - 1) (p.b.toNat - 1) id db {i % db.numColumns} (noise (x.2 k))
    · exact Or.inl hov
    · right
      exact wrong_hits aesctr p hB db (fun k => ⟨tB (x.1 k), sB (x.2 k), noise (x.2 k)⟩) (fun k => hs _ _) F i hi
        (fun k hk => hov ⟨k, mem_univ _, hk⟩) b hr hne
  refine le_trans (avg_mono key) ?_
  rw [← avg_add, avg_sum]
  have hn : ∑ k : Fin (2 * r + 1), avg (fun x : (Fin (2 * r + 1) → T) × (Fin (2 * r + 1) → Ω) =>
      indicator (Overflow (p.b.toNat - 1) (p.b.toNat - 1) id db {i % db.numColumns} (noise (x.2 k)))) =
      (2 * r + 1) * avg (fun ω => indicator (Overflow (p.b.toNat - 1) (p.b.toNat - 1) id db {i % db.numColumns} (noise ω))) := by
    rw [sum_congr rfl (g := fun _ => avg (fun ω => indicator (Overflow (p.b.toNat - 1) (p.b.toNat - 1) id db
      {i % db.numColumns} (noise ω)))) (fun k _ => ?_)]
    · rw [sum_const, card_univ, Fintype.card_fin, nsmul_eq_mul]
      push_cast
      rfl
    · exact avg_one_of k (fun ω => indicator (Overflow (p.b.toNat - 1) (p.b.toNat - 1) id db
        {i % db.numColumns} (noise ω)))
  have h := le_of_abs_sub (hop_all (n := 2 * r + 1) v (i / db.numColumns) t (fun u τ => indicator (HitsMost db F
    ((2 * p.b.toNat - 2 : Nat) : Int) {i % db.numColumns} u (fun k => t (τ k)))))
  have hu := hitsMost_uniform (r := r) (l := p.l) db F (2 * p.b.toNat - 2) {i % db.numColumns} t ε hε
  rw [card_singleton, Nat.cast_one, one_mul] at hu
  have e : lweGaps v (fun u => avg (fun τ : Fin (2 * r + 1) → T => indicator (HitsMost db F
      ((2 * p.b.toNat - 2 : Nat) : Int) {i % db.numColumns} (shiftedAll t (i / db.numColumns) u τ) (fun k => t (τ k))))) =
    lweGaps (fun ω => secretVector lwe32 aesctr p id (sB ω) (noise ω))
        (mostTest (r := r) db F ((2 * p.b.toNat - 2 : Nat) : Int) {i % db.numColumns} (fun τ => wordAt 32 4 (tB τ) 0)
          (i / db.numColumns)) := rfl
  rw [e] at h
  linarith

/-! ### The hypotheses are met -/

/-- Noise of plus or minus one is never too large for a database of three rows and columns. -/
theorem small_noise (aesctr : List Byte → Nat → Byte) (db : Db 32) (c : Coins)
    (hs : Setup lwe32 aesctr (paramsWithDatabaseSize 3 3) db c) (hr : db.numRows = 3) (ks : Finset Nat) :
    avg (fun x : (Fin 4400 → Byte) × (Fin 3 → Bool) => indicator (Overflow
      ((paramsWithDatabaseSize 3 3).b.toNat - 1) ((paramsWithDatabaseSize 3 3).b.toNat - 1) id db ks
      (List.ofFn (fun r => if x.2 r then 1 else -1)))) = 0 := by
  have hb : (paramsWithDatabaseSize 3 3).b.toNat = 252 := by decide
  rw [show (fun x : (Fin 4400 → Byte) × (Fin 3 → Bool) => indicator (Overflow
    ((paramsWithDatabaseSize 3 3).b.toNat - 1) ((paramsWithDatabaseSize 3 3).b.toNat - 1) id db ks
    (List.ofFn (fun r => if x.2 r then 1 else -1)))) = fun _ => (0 : ℚ) from by
      funext x
      apply indicator_false
      rintro ⟨k, -, hk⟩
      apply hk
      rw [hb, hr]
      unfold columnNoise
      have hbit : ∀ r, (storedBit db.matrix r k : Int) = 0 ∨ (storedBit db.matrix r k : Int) = 1 := by
        intro r
        rcases bit_cases (w := 32) hs.valid.bin r k with ⟨e, -⟩ | ⟨e, -⟩ <;> rw [e] <;> simp
      have hval : ∀ r, r < 3 → (id ((List.ofFn (fun r => if x.2 r then (1 : Int) else -1)).getD r 0) = 1 ∨
          id ((List.ofFn (fun r => if x.2 r then (1 : Int) else -1)).getD r 0) = -1) := by
        generalize x.2 = f
        revert f
        decide
      rw [sum_range_succ, sum_range_succ, sum_range_succ, sum_range_zero]
      dsimp only
      rcases hbit 0 with e0 | e0 <;> rcases hbit 1 with e1 | e1 <;> rcases hbit 2 with e2 | e2 <;>
        rcases hval 0 (by decide) with f0 | f0 <;> rcases hval 1 (by decide) with f1 | f1 <;>
        rcases hval 2 (by decide) with f2 | f2 <;> rw [e0, e1, e2, f0, f1, f2] <;> norm_num]
  unfold avg
  simp only [sum_const_zero, zero_div]

/-- A database of three rows and columns, seven repetitions, uniform secrets and multipliers and noise of plus or minus one
meet the hypotheses of C110: but for solving LWE a wrong bit is taken with probability below 2^-79. -/
example (aesctr : List Byte → Nat → Byte) (F : List Byte → Res (List Byte)) : ∃ db : Db 32,
    db.numRows = 3 ∧ db.numColumns = 3 ∧
    avg (fun x : (Fin 7 → Fin 4 → Byte) × (Fin 7 → (Fin 4400 → Byte) × (Fin 3 → Bool)) => indicator (∃ b,
      amplifyRetrieve aesctr (paramsWithDatabaseSize 3 3) db.numColumns db.digest
        (coinsAll (fun x => List.ofFn x) (fun x => List.ofFn x.1) (fun x => List.ofFn (fun r => if x.2 r then 1 else -1)) x)
        4 F = ok b ∧ b ≠ BitVec.ofNat 32 (storedBit db.matrix 1 1))) ≤ 1 / 2 ^ 79 +
      lweGaps (fun x : (Fin 4400 → Byte) × (Fin 3 → Bool) => secretVector lwe32 aesctr (paramsWithDatabaseSize 3 3) id
          (List.ofFn x.1) (List.ofFn (fun r => if x.2 r then 1 else -1)))
        (mostTest (r := 3) db F 502 {1} (fun x : Fin 4 → Byte => wordAt 32 4 (List.ofFn x) 0) 1) := by
  obtain ⟨⟨db, hs, hr, hc⟩, -⟩ := setup_exists aesctr 3 3 [0b10110101, 1] (by decide) (by decide) (by decide)
    ⟨[], [], [1, 1, 1]⟩ (by decide) (by decide)
  have hno : ∀ x : Fin 3 → Bool, (List.ofFn (fun r => if x r then (1 : Int) else -1)).length = 3 ∧
      ∀ g ∈ List.ofFn (fun r => if x r then (1 : Int) else -1), |g| ≤ 128 := by decide
  have hb : (paramsWithDatabaseSize 3 3).b.toNat = 252 := by decide
  refine ⟨db, hr, hc, ?_⟩
  have h := C110_wrong_bit (r := 3) aesctr (paramsWithDatabaseSize 3 3) (by decide) db (fun x : Fin 4 → Byte => List.ofFn x)
    (fun x : (Fin 4400 → Byte) × (Fin 3 → Bool) => List.ofFn x.1)
    (fun x => List.ofFn (fun r => if x.2 r then 1 else -1))
    (fun τ ω => ⟨hs.valid, hs.params, hs.digest, hs.fits, by rw [hr]; exact (hno ω.2).1, (hno ω.2).2⟩) F _ C88_spread32
    4 (by rw [hr, hc]; decide)
  rw [small_noise aesctr db _ hs hr] at h
  simp only [hc, hb, show 4 / 3 = 1 from rfl, show 4 % 3 = 1 from rfl,
    show ((2 * 252 - 2 : Nat) : Int) = 502 from rfl] at h ⊢
  have e : (2 * ((3 : Nat) : ℚ) + 1) * 0 + ((2 * 3).choose 3 : Nat) *
      (2 * (2 * ((2 * 252 - 2 : Nat) : ℚ) + 1) * (1 / 2 ^ 32)) ^ (3 + 1) ≤ 1 / 2 ^ 79 := by
    rw [show Nat.choose (2 * 3) 3 = 20 from by decide]
    norm_num
  linarith

/-- The same for C109: but for solving LWE, the reaction tells two indices apart with an advantage below 2^-10. -/
example (aesctr : List Byte → Nat → Byte) (F : List Byte → Res (List Byte)) (D : Res (List Byte) × Res Unit → ℚ)
    (hD : IsTest D) : ∃ db : Db 32, db.numRows = 3 ∧ db.numColumns = 3 ∧
    advantage (fun x : (Fin 7 → Fin 4 → Byte) × (Fin 7 → (Fin 4400 → Byte) × (Fin 3 → Bool)) =>
        viewAll aesctr (paramsWithDatabaseSize 3 3) db F 2
          (coinsAll (fun x => List.ofFn x) (fun x => List.ofFn x.1) (fun x => List.ofFn (fun r => if x.2 r then 1 else -1)) x))
      (fun x : (Fin 7 → Fin 4 → Byte) × (Fin 7 → (Fin 4400 → Byte) × (Fin 3 → Bool)) =>
        viewAll aesctr (paramsWithDatabaseSize 3 3) db F 7
          (coinsAll (fun x => List.ofFn x) (fun x => List.ofFn x.1) (fun x => List.ofFn (fun r => if x.2 r then 1 else -1)) x))
      D ≤ 1 / 2 ^ 10 + (
      hintGaps (fun x : (Fin 4400 → Byte) × (Fin 3 → Bool) => secretVector lwe32 aesctr (paramsWithDatabaseSize 3 3) id
          (List.ofFn x.1) (List.ofFn (fun r => if x.2 r then 1 else -1)))
        (fun x => tolerance lwe32 (paramsWithDatabaseSize 3 3).b db
          (fun r => (List.ofFn (fun r => if x.2 r then 1 else -1)).getD r 0))
        (seeAllTest (n := 7) db F (fun x : Fin 4 → Byte => wordAt 32 4 (List.ofFn x) 0) 0 D) +
      hintGaps (fun x : (Fin 4400 → Byte) × (Fin 3 → Bool) => secretVector lwe32 aesctr (paramsWithDatabaseSize 3 3) id
          (List.ofFn x.1) (List.ofFn (fun r => if x.2 r then 1 else -1)))
        (fun x => tolerance lwe32 (paramsWithDatabaseSize 3 3).b db
          (fun r => (List.ofFn (fun r => if x.2 r then 1 else -1)).getD r 0))
        (seeAllTest (n := 7) db F (fun x : Fin 4 → Byte => wordAt 32 4 (List.ofFn x) 0) 2 D) +
      lweGaps (fun x : (Fin 4400 → Byte) × (Fin 3 → Bool) => secretVector lwe32 aesctr (paramsWithDatabaseSize 3 3) id
          (List.ofFn x.1) (List.ofFn (fun r => if x.2 r then 1 else -1)))
        (oneTest (n := 7) db F 502 (range 3) (fun x : Fin 4 → Byte => wordAt 32 4 (List.ofFn x) 0) 0) +
      lweGaps (fun x : (Fin 4400 → Byte) × (Fin 3 → Bool) => secretVector lwe32 aesctr (paramsWithDatabaseSize 3 3) id
          (List.ofFn x.1) (List.ofFn (fun r => if x.2 r then 1 else -1)))
        (oneTest (n := 7) db F 502 (range 3) (fun x : Fin 4 → Byte => wordAt 32 4 (List.ofFn x) 0) 2)) := by
  obtain ⟨⟨db, hs, hr, hc⟩, -⟩ := setup_exists aesctr 3 3 [0b10110101, 1] (by decide) (by decide) (by decide)
    ⟨[], [], [1, 1, 1]⟩ (by decide) (by decide)
  have hno : ∀ x : Fin 3 → Bool, (List.ofFn (fun r => if x r then (1 : Int) else -1)).length = 3 ∧
      ∀ g ∈ List.ofFn (fun r => if x r then (1 : Int) else -1), |g| ≤ 128 := by decide
  have hb : (paramsWithDatabaseSize 3 3).b.toNat = 252 := by decide
  refine ⟨db, hr, hc, ?_⟩
  have h := C109_reaction_hides (n := 7) (by decide) aesctr (paramsWithDatabaseSize 3 3) (by decide) db
    (fun x : Fin 4 → Byte => List.ofFn x) (fun x : (Fin 4400 → Byte) × (Fin 3 → Bool) => List.ofFn x.1)
    (fun x => List.ofFn (fun r => if x.2 r then 1 else -1))
    (fun τ ω => ⟨hs.valid, hs.params, hs.digest, hs.fits, by rw [hr]; exact (hno ω.2).1, (hno ω.2).2⟩) F _ C88_spread32
    2 7 (by rw [hr, hc]; decide) (by rw [hr, hc]; decide) D hD
  rw [small_noise aesctr db _ hs hr] at h
  simp only [hc, hb, show 2 / 3 = 0 from rfl, show 7 / 3 = 2 from rfl,
    show ((2 * 252 - 2 : Nat) : Int) = 502 from rfl] at h
  have e : (2 : ℚ) * (7 : Nat) * 0 +
      2 * (7 : Nat) * (((3 : Nat) : ℚ) * (2 * (2 * ((2 * 252 - 2 : Nat) : ℚ) + 1) * (1 / 2 ^ 32))) ≤ 1 / 2 ^ 10 := by
    norm_num
  linarith

/-- And for C108, with a database of ten rows and twenty columns. -/
example (aesctr : List Byte → Nat → Byte) (dg : Mat 32) (D : Res (List Byte) → ℚ) :
    advantage (fun x : (Fin 7 → Fin 4 → Byte) × (Fin 7 → (Fin 4400 → Byte) × (Fin 10 → Bool)) =>
        sentAll aesctr (paramsWithDatabaseSize 10 20) 20 dg 7
          (coinsAll (fun x => List.ofFn x) (fun x => List.ofFn x.1) (fun x => List.ofFn (fun r => if x.2 r then 1 else -1)) x))
      (fun x : (Fin 7 → Fin 4 → Byte) × (Fin 7 → (Fin 4400 → Byte) × (Fin 10 → Bool)) =>
        sentAll aesctr (paramsWithDatabaseSize 10 20) 20 dg 199
          (coinsAll (fun x => List.ofFn x) (fun x => List.ofFn x.1) (fun x => List.ofFn (fun r => if x.2 r then 1 else -1)) x))
      D ≤
      lweGaps (fun x : (Fin 4400 → Byte) × (Fin 10 → Bool) => secretVector lwe32 aesctr (paramsWithDatabaseSize 10 20) id
          (List.ofFn x.1) (List.ofFn (fun r => if x.2 r then 1 else -1)))
        (rowsTest (n := 7) (fun x : Fin 4 → Byte => wordAt 32 4 (List.ofFn x) 0) (7 / 20) D) +
      lweGaps (fun x : (Fin 4400 → Byte) × (Fin 10 → Bool) => secretVector lwe32 aesctr (paramsWithDatabaseSize 10 20) id
          (List.ofFn x.1) (List.ofFn (fun r => if x.2 r then 1 else -1)))
        (rowsTest (n := 7) (fun x : Fin 4 → Byte => wordAt 32 4 (List.ofFn x) 0) (199 / 20) D) :=
  C108_query_hides aesctr (paramsWithDatabaseSize 10 20) (by decide) 20 dg (by decide) (fun x : Fin 4 → Byte => List.ofFn x)
    (fun x : (Fin 4400 → Byte) × (Fin 10 → Bool) => List.ofFn x.1)
    (fun x => List.ofFn (fun r => if x.2 r then 1 else -1)) (by intro x; simp [paramsWithDatabaseSize])
    (by
      intro x g hg
      rw [List.mem_ofFn] at hg
      obtain ⟨r, rfl⟩ := hg
      split <;> decide)
    7 199 (by decide) (by decide) D

end Verif.Lwe
