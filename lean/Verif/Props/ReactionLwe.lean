import Verif.Lemmas.ReactionLwe
import Verif.Props.Lwe

/-! # C88, C89: a lying server of the LWE schemes -/

namespace Verif.Lwe
open Res Verif.Matrix Verif.Privacy Verif.Reaction Finset Verif.Lwe.Spec

variable {w : Nat}

theorem avg_snd_le {Ω T : Type} [Fintype Ω] [Fintype T] (f : Ω → ℚ) (h : ∀ ω, 0 ≤ f ω) :
    avg (fun x : T × Ω => f x.2) ≤ avg f := by
  rw [avg_prod]
  apply avg_mono
  intro ω
  by_cases hT : Nonempty T
  · exact le_of_eq (avg_const (f ω))
  · have : IsEmpty T := not_nonempty_iff.mp hT
    unfold avg
    simp only [univ_eq_empty, sum_empty, zero_div]
    exact h ω

/-- The reduction, for either scheme. -/
theorem lwe_reaction {S : Scheme w} {lo hi : Int} {nz : Int → Int} {Ω T : Type} [Fintype Ω] [Fintype T]
    (aesctr : List Byte → Nat → Byte) (p : Params) (G : Good S lo hi nz p.b) (d : Nat) (hd : lo + hi = d) (db : Db w)
    (tB : T → List Byte) (sB : Ω → List Byte) (noise : Ω → List Int)
    (hs : ∀ τ ω, Setup S aesctr p db ⟨tB τ, sB ω, noise ω⟩) (F : List Byte → Res (List Byte)) (ε : ℚ)
    (hε : Spread (fun τ => wordAt w S.k (tB τ) 0) ε) (i i' : Nat) (hii : i < db.numRows * db.numColumns)
    (hii' : i' < db.numRows * db.numColumns) (D : Res (List Byte) × Res Unit → ℚ) (hD : IsTest D) :
    advantage (fun x : T × Ω => view S aesctr p db F i ⟨tB x.1, sB x.2, noise x.2⟩)
        (fun x : T × Ω => view S aesctr p db F i' ⟨tB x.1, sB x.2, noise x.2⟩) D ≤
      hintGap (fun ω => secretVector S aesctr p nz (sB ω) (noise ω))
        (fun ω => tolerance S p.b db (fun r => nz ((noise ω).getD r 0)))
        (seeTest S db F (fun τ => wordAt w S.k (tB τ) 0) (i / db.numColumns) D) +
      hintGap (fun ω => secretVector S aesctr p nz (sB ω) (noise ω))
        (fun ω => tolerance S p.b db (fun r => nz ((noise ω).getD r 0)))
        (seeTest S db F (fun τ => wordAt w S.k (tB τ) 0) (i' / db.numColumns) D) +
      lweGap (fun ω => secretVector S aesctr p nz (sB ω) (noise ω))
        (hitTest S db F d (range db.numColumns) (fun τ => wordAt w S.k (tB τ) 0) (i / db.numColumns)) +
      lweGap (fun ω => secretVector S aesctr p nz (sB ω) (noise ω))
        (hitTest S db F d (range db.numColumns) (fun τ => wordAt w S.k (tB τ) 0) (i' / db.numColumns)) +
      2 * avg (fun ω => indicator (Overflow lo hi nz db (range db.numColumns) (noise ω))) +
      2 * (db.numColumns * (2 * (2 * d + 1) * ε)) := by
  have one : ∀ m : Nat, m < db.numRows * db.numColumns →
      |avg (fun x : T × Ω => D (view S aesctr p db F m ⟨tB x.1, sB x.2, noise x.2⟩)) -
        avg (fun x : T × (Fin p.l → BitVec w) × Ω => D (rowMessage S.toBytes x.2.1,
          expected S db F x.2.1 (tolerance S p.b db (fun r => nz ((noise x.2.2).getD r 0)))))| ≤
      (avg (fun ω => indicator (Overflow lo hi nz db (range db.numColumns) (noise ω))) +
      (lweGap (fun ω => secretVector S aesctr p nz (sB ω) (noise ω))
        (hitTest S db F d (range db.numColumns) (fun τ => wordAt w S.k (tB τ) 0) (m / db.numColumns)) +
        db.numColumns * (2 * (2 * d + 1) * ε))) +
      hintGap (fun ω => secretVector S aesctr p nz (sB ω) (noise ω))
        (fun ω => tolerance S p.b db (fun r => nz ((noise ω).getD r 0)))
        (seeTest S db F (fun τ => wordAt w S.k (tB τ) 0) (m / db.numColumns) D) := by
    intro m hm
    have h1 := avg_switch (f := fun x : T × Ω => D (view S aesctr p db F m ⟨tB x.1, sB x.2, noise x.2⟩))
      (f' := fun x : T × Ω => D (rowMessage S.toBytes (shifted (secretVector S aesctr p nz (sB x.2) (noise x.2))
          (m / db.numColumns) (wordAt w S.k (tB x.1) 0)),
        expected S db F (shifted (secretVector S aesctr p nz (sB x.2) (noise x.2)) (m / db.numColumns)
          (wordAt w S.k (tB x.1) 0)) (tolerance S p.b db (fun r => nz ((noise x.2).getD r 0)))))
      (E := fun x : T × Ω => Overflow lo hi nz db (range db.numColumns) (noise x.2) ∨
        Hits S db F d (range db.numColumns) (shifted (secretVector S aesctr p nz (sB x.2) (noise x.2))
          (m / db.numColumns) (wordAt w S.k (tB x.1) 0)) (wordAt w S.k (tB x.1) 0)) (fun x => hD _) (fun x => hD _) (by
        intro x hx
        rw [not_or] at hx
        rw [reaction_eq aesctr p G db _ (hs x.1 x.2) F m hm _ rfl (by rw [hd]; exact hx.2) hx.1])
    have h2 : avg (fun x : T × Ω => indicator (Overflow lo hi nz db (range db.numColumns) (noise x.2) ∨
        Hits S db F d (range db.numColumns) (shifted (secretVector S aesctr p nz (sB x.2) (noise x.2))
          (m / db.numColumns) (wordAt w S.k (tB x.1) 0)) (wordAt w S.k (tB x.1) 0))) ≤
        avg (fun ω => indicator (Overflow lo hi nz db (range db.numColumns) (noise ω))) +
        (lweGap (fun ω => secretVector S aesctr p nz (sB ω) (noise ω))
          (hitTest S db F d (range db.numColumns) (fun τ => wordAt w S.k (tB τ) 0) (m / db.numColumns)) +
          db.numColumns * (2 * (2 * d + 1) * ε)) := by
      refine le_trans (avg_mono (fun x => indicator_or _ _)) ?_
      rw [← avg_add]
      have hb := hits_bound S db F d (range db.numColumns) (fun ω => secretVector S aesctr p nz (sB ω) (noise ω))
        (fun τ => wordAt w S.k (tB τ) 0) ε hε (m / db.numColumns)
      rw [card_range] at hb
      exact add_le_add (avg_snd_le _ (fun ω => indicator_nonneg _)) hb
    have h3 := hop_hint (fun ω => secretVector S aesctr p nz (sB ω) (noise ω))
      (fun ω => tolerance S p.b db (fun r => nz ((noise ω).getD r 0))) (m / db.numColumns)
      (fun τ : T => wordAt w S.k (tB τ) 0) (fun v _ near => D (rowMessage S.toBytes v, expected S db F v near))
    exact close_trans (le_trans h1 h2) (le_of_eq h3)
  have h := one i hii
  have h' := one i' hii'
  rw [abs_sub_comm] at h'
  have := close_trans h h'
  unfold advantage
  linarith

/-- C88 for the 32-bit client: whatever the server answers, it cannot tell two indices apart by its message and the way the
client ends, except by solving one of four explicit instances of the LWE problem (of which two use the noise for one
comparison of the answer with the honest one), by guessing a multiplier up to `2 B`, or when the noise is too large. -/
theorem C88_reaction_hides32 {Ω T : Type} [Fintype Ω] [Fintype T] (aesctr : List Byte → Nat → Byte) (p : Params)
    (hB : 0 < p.b.toNat) (db : Db 32) (tB : T → List Byte) (sB : Ω → List Byte) (noise : Ω → List Int)
    (hs : ∀ τ ω, Setup lwe32 aesctr p db ⟨tB τ, sB ω, noise ω⟩) (F : List Byte → Res (List Byte)) (ε : ℚ)
    (hε : Spread (fun τ => wordAt 32 4 (tB τ) 0) ε) (i i' : Nat) (hi : i < db.numRows * db.numColumns)
    (hi' : i' < db.numRows * db.numColumns) (D : Res (List Byte) × Res Unit → ℚ) (hD : IsTest D) :
    advantage (fun x : T × Ω => view lwe32 aesctr p db F i ⟨tB x.1, sB x.2, noise x.2⟩)
        (fun x : T × Ω => view lwe32 aesctr p db F i' ⟨tB x.1, sB x.2, noise x.2⟩) D ≤
      hintGap (fun ω => secretVector lwe32 aesctr p id (sB ω) (noise ω))
        (fun ω => tolerance lwe32 p.b db (fun r => (noise ω).getD r 0))
        (seeTest lwe32 db F (fun τ => wordAt 32 4 (tB τ) 0) (i / db.numColumns) D) +
      hintGap (fun ω => secretVector lwe32 aesctr p id (sB ω) (noise ω))
        (fun ω => tolerance lwe32 p.b db (fun r => (noise ω).getD r 0))
        (seeTest lwe32 db F (fun τ => wordAt 32 4 (tB τ) 0) (i' / db.numColumns) D) +
      lweGap (fun ω => secretVector lwe32 aesctr p id (sB ω) (noise ω))
        (hitTest lwe32 db F ((2 * p.b.toNat - 2 : Nat) : Int) (range db.numColumns) (fun τ => wordAt 32 4 (tB τ) 0)
          (i / db.numColumns)) +
      lweGap (fun ω => secretVector lwe32 aesctr p id (sB ω) (noise ω))
        (hitTest lwe32 db F ((2 * p.b.toNat - 2 : Nat) : Int) (range db.numColumns) (fun τ => wordAt 32 4 (tB τ) 0)
          (i' / db.numColumns)) +
      2 * avg (fun ω => indicator (Overflow (p.b.toNat - 1) (p.b.toNat - 1) id db (range db.numColumns) (noise ω))) +
      2 * (db.numColumns * (2 * (2 * (2 * p.b.toNat - 2 : Nat) + 1) * ε)) :=
  lwe_reaction aesctr p (good32 p.b hB) (2 * p.b.toNat - 2) (by omega) db tB sB noise hs F ε hε i i' hi hi' D hD

/-- C88 for the 128-bit client. -/
theorem C88_reaction_hides128 {Ω T : Type} [Fintype Ω] [Fintype T] (aesctr : List Byte → Nat → Byte) (p : Params)
    (hB : p.b.toNat < 2 ^ 32 - 1) (db : Db 128) (tB : T → List Byte) (sB : Ω → List Byte) (noise : Ω → List Int)
    (hs : ∀ τ ω, Setup lwe128 aesctr p db ⟨tB τ, sB ω, noise ω⟩) (F : List Byte → Res (List Byte)) (ε : ℚ)
    (hε : Spread (fun τ => wordAt 128 16 (tB τ) 0) ε) (i i' : Nat) (hi : i < db.numRows * db.numColumns)
    (hi' : i' < db.numRows * db.numColumns) (D : Res (List Byte) × Res Unit → ℚ) (hD : IsTest D) :
    advantage (fun x : T × Ω => view lwe128 aesctr p db F i ⟨tB x.1, sB x.2, noise x.2⟩)
        (fun x : T × Ω => view lwe128 aesctr p db F i' ⟨tB x.1, sB x.2, noise x.2⟩) D ≤
      hintGap (fun ω => secretVector lwe128 aesctr p noise128 (sB ω) (noise ω))
        (fun ω => tolerance lwe128 p.b db (fun r => noise128 ((noise ω).getD r 0)))
        (seeTest lwe128 db F (fun τ => wordAt 128 16 (tB τ) 0) (i / db.numColumns) D) +
      hintGap (fun ω => secretVector lwe128 aesctr p noise128 (sB ω) (noise ω))
        (fun ω => tolerance lwe128 p.b db (fun r => noise128 ((noise ω).getD r 0)))
        (seeTest lwe128 db F (fun τ => wordAt 128 16 (tB τ) 0) (i' / db.numColumns) D) +
      lweGap (fun ω => secretVector lwe128 aesctr p noise128 (sB ω) (noise ω))
        (hitTest lwe128 db F ((2 * p.b.toNat : Nat) : Int) (range db.numColumns) (fun τ => wordAt 128 16 (tB τ) 0)
          (i / db.numColumns)) +
      lweGap (fun ω => secretVector lwe128 aesctr p noise128 (sB ω) (noise ω))
        (hitTest lwe128 db F ((2 * p.b.toNat : Nat) : Int) (range db.numColumns) (fun τ => wordAt 128 16 (tB τ) 0)
          (i' / db.numColumns)) +
      2 * avg (fun ω => indicator (Overflow (p.b.toNat + 1) (p.b.toNat - 1) noise128 db (range db.numColumns) (noise ω))) +
      2 * (db.numColumns * (2 * (2 * (2 * p.b.toNat : Nat) + 1) * ε)) :=
  lwe_reaction aesctr p (good128 p.b hB) (2 * p.b.toNat) (by omega) db tB sB noise hs F ε hε i i' hi hi' D hD

/-! ### C89 -/

/-- The bound on forged bits, for either scheme. -/
theorem lwe_forged {S : Scheme w} {lo hi : Int} {nz : Int → Int} {Ω T : Type} [Fintype Ω] [Fintype T]
    (aesctr : List Byte → Nat → Byte) (p : Params) (G : Good S lo hi nz p.b) (d : Nat) (hd : lo + hi = d) (db : Db w)
    (tB : T → List Byte) (sB : Ω → List Byte) (noise : Ω → List Int)
    (hs : ∀ τ ω, Setup S aesctr p db ⟨tB τ, sB ω, noise ω⟩) (F : List Byte → Res (List Byte)) (ε : ℚ)
    (hε : Spread (fun τ => wordAt w S.k (tB τ) 0) ε) (i : Nat) (hii : i < db.numRows * db.numColumns) :
    avg (fun x : T × Ω => indicator (∃ b, retrieve S aesctr p db.numColumns db.digest ⟨tB x.1, sB x.2, noise x.2⟩ i F = ok b ∧
      b ≠ BitVec.ofNat 32 (storedBit db.matrix (i / db.numColumns) (i % db.numColumns)))) ≤
      lweGap (fun ω => secretVector S aesctr p nz (sB ω) (noise ω))
        (hitTest S db F d {i % db.numColumns} (fun τ => wordAt w S.k (tB τ) 0) (i / db.numColumns)) +
      avg (fun ω => indicator (Overflow lo hi nz db {i % db.numColumns} (noise ω))) + 2 * (2 * d + 1) * ε := by
  have hnc : 0 < db.numColumns := by
    rcases Nat.eq_zero_or_pos db.numColumns with h | h
    · rw [h] at hii; omega
    · exact h
  have hrow : i / db.numColumns < db.numRows := by
    rw [Nat.div_lt_iff_lt_mul hnc]; exact hii
  have hj := Nat.mod_lt i hnc
  have key : ∀ x : T × Ω, indicator (∃ b, retrieve S aesctr p db.numColumns db.digest ⟨tB x.1, sB x.2, noise x.2⟩ i F = ok b ∧
      b ≠ BitVec.ofNat 32 (storedBit db.matrix (i / db.numColumns) (i % db.numColumns))) ≤
      indicator (Overflow lo hi nz db {i % db.numColumns} (noise x.2)) +
      indicator (Hits S db F d {i % db.numColumns} (shifted (secretVector S aesctr p nz (sB x.2) (noise x.2))
          (i / db.numColumns) (wordAt w S.k (tB x.1) 0)) (wordAt w S.k (tB x.1) 0)) := by
    intro x
    refine le_trans (indicator_mono ?_) (indicator_or _ _)
    rintro ⟨b, hr, hne⟩
    by_cases hov : Overflow lo hi nz db {i % db.numColumns} (noise x.2)
    · exact Or.inl hov
    right
    have hS := hs x.1 x.2
    have hl : p.l = db.numRows := hS.params.l
    obtain ⟨f1, f2, -⟩ := fits_1nl hS.fits
    have hqr := query_row aesctr p G db.digest ⟨tB x.1, sB x.2, noise x.2⟩ (i / db.numColumns) (i % db.numColumns)
      (by rw [hl]; exact f1) (by rw [hl]; exact hS.noiseLen) hS.noise (by omega)
    obtain ⟨st, q, h, std, h1, h2, -⟩ :=
      honest_values aesctr p G db hS.valid hS.params hS.digest hS.fits _ hS.noiseLen hS.noise (i / db.numColumns)
        (i % db.numColumns) hrow
    have hqr' := hqr
    rw [h1] at hqr'
    simp only [ok.injEq, Prod.mk.injEq] at hqr'
    obtain ⟨-, hq⟩ := hqr'
    unfold retrieve queryBytes at hr
    rw [if_neg (by omega), h1, ok_bind] at hr
    dsimp only at hr
    obtain ⟨⟨st', qb⟩, hqb, hr⟩ := bind_eq_ok.mp hr
    obtain ⟨qb', hqb', hr'⟩ := bind_eq_ok.mp hqb
    rw [ok.injEq, Prod.mk.injEq] at hr'
    obtain ⟨rfl, rfl⟩ := hr'
    obtain ⟨a, ha, hr⟩ := bind_eq_ok.mp hr
    unfold reconstructBytes at hr
    obtain ⟨m, hm, hr⟩ := bind_eq_ok.mp hr
    have hcol : -lo ≤ columnNoise (fun r => nz ((noise x.2).getD r 0)) db.matrix db.numRows (i % db.numColumns) ∧
        columnNoise (fun r => nz ((noise x.2).getD r 0)) db.matrix db.numRows (i % db.numColumns) ≤ hi := by
      by_contra hc
      exact hov ⟨_, mem_singleton_self _, hc⟩
    have hint := integrity aesctr p G db _ hS (i / db.numColumns) (i % db.numColumns) hrow hj hcol st q h m b h1 h2 hr hne
    rw [hd] at hint
    refine ⟨qb', a, m, h, ?_, ha, hm, ?_, i % db.numColumns, mem_singleton_self _, hint⟩
    · unfold rowMessage
      rw [← hq]; exact hqb'
    · rw [← hq]; exact h2
  refine le_trans (avg_mono key) ?_
  rw [← avg_add]
  have hb := hits_bound S db F d {i % db.numColumns} (fun ω => secretVector S aesctr p nz (sB ω) (noise ω))
    (fun τ => wordAt w S.k (tB τ) 0) ε hε (i / db.numColumns)
  rw [card_singleton, Nat.cast_one, one_mul] at hb
  have hn := avg_snd_le (T := T) (fun ω => indicator (Overflow lo hi nz db {i % db.numColumns} (noise ω))) (fun ω => indicator_nonneg _)
  linarith

/-- C89 for the 32-bit client: whatever the server answers, the client takes a wrong bit only if the server solves an explicit
instance of the LWE problem, guesses a multiplier up to `2 B`, or the noise is too large. -/
theorem C89_wrong_bit32 {Ω T : Type} [Fintype Ω] [Fintype T] (aesctr : List Byte → Nat → Byte) (p : Params)
    (hB : 0 < p.b.toNat) (db : Db 32) (tB : T → List Byte) (sB : Ω → List Byte) (noise : Ω → List Int)
    (hs : ∀ τ ω, Setup lwe32 aesctr p db ⟨tB τ, sB ω, noise ω⟩) (F : List Byte → Res (List Byte)) (ε : ℚ)
    (hε : Spread (fun τ => wordAt 32 4 (tB τ) 0) ε) (i : Nat) (hi : i < db.numRows * db.numColumns) :
    avg (fun x : T × Ω => indicator (∃ b,
      retrieve lwe32 aesctr p db.numColumns db.digest ⟨tB x.1, sB x.2, noise x.2⟩ i F = ok b ∧
      b ≠ BitVec.ofNat 32 (storedBit db.matrix (i / db.numColumns) (i % db.numColumns)))) ≤
      lweGap (fun ω => secretVector lwe32 aesctr p id (sB ω) (noise ω))
        (hitTest lwe32 db F ((2 * p.b.toNat - 2 : Nat) : Int) {i % db.numColumns} (fun τ => wordAt 32 4 (tB τ) 0)
          (i / db.numColumns)) +
      avg (fun ω => indicator (Overflow (p.b.toNat - 1) (p.b.toNat - 1) id db {i % db.numColumns} (noise ω))) +
      2 * (2 * (2 * p.b.toNat - 2 : Nat) + 1) * ε :=
  lwe_forged aesctr p (good32 p.b hB) (2 * p.b.toNat - 2) (by omega) db tB sB noise hs F ε hε i hi

/-- C89 for the 128-bit client. -/
theorem C89_wrong_bit128 {Ω T : Type} [Fintype Ω] [Fintype T] (aesctr : List Byte → Nat → Byte) (p : Params)
    (hB : p.b.toNat < 2 ^ 32 - 1) (db : Db 128) (tB : T → List Byte) (sB : Ω → List Byte) (noise : Ω → List Int)
    (hs : ∀ τ ω, Setup lwe128 aesctr p db ⟨tB τ, sB ω, noise ω⟩) (F : List Byte → Res (List Byte)) (ε : ℚ)
    (hε : Spread (fun τ => wordAt 128 16 (tB τ) 0) ε) (i : Nat) (hi : i < db.numRows * db.numColumns) :
    avg (fun x : T × Ω => indicator (∃ b,
      retrieve lwe128 aesctr p db.numColumns db.digest ⟨tB x.1, sB x.2, noise x.2⟩ i F = ok b ∧
      b ≠ BitVec.ofNat 32 (storedBit db.matrix (i / db.numColumns) (i % db.numColumns)))) ≤
      lweGap (fun ω => secretVector lwe128 aesctr p noise128 (sB ω) (noise ω))
        (hitTest lwe128 db F ((2 * p.b.toNat : Nat) : Int) {i % db.numColumns} (fun τ => wordAt 128 16 (tB τ) 0)
          (i / db.numColumns)) +
      avg (fun ω => indicator (Overflow (p.b.toNat + 1) (p.b.toNat - 1) noise128 db {i % db.numColumns} (noise ω))) +
      2 * (2 * (2 * p.b.toNat : Nat) + 1) * ε :=
  lwe_forged aesctr p (good128 p.b hB) (2 * p.b.toNat) (by omega) db tB sB noise hs F ε hε i hi

/-- C88, C89: a multiplier of `k` uniform bytes is a uniform word. -/
theorem spread_bytes (w k : Nat) (hk : 256 ^ k = 2 ^ w) :
    Spread (fun x : Fin k → Byte => wordAt w k (List.ofFn x) 0) (1 / 2 ^ w) := by
  intro x
  have hinj : ∀ a b : Fin k → Byte, wordAt w k (List.ofFn a) 0 = wordAt w k (List.ofFn b) 0 → a = b := by
    intro a b h
    unfold wordAt at h
    simp only [Nat.mul_zero, List.drop_zero] at h
    rw [List.take_of_length_le (by simp), List.take_of_length_le (by simp)] at h
    have h' := congrArg BitVec.toNat h
    rw [BitVec.toNat_ofNat, BitVec.toNat_ofNat, ← hk] at h'
    have la := ofLE_lt (List.ofFn a)
    have lb := ofLE_lt (List.ofFn b)
    rw [List.length_ofFn] at la lb
    rw [Nat.mod_eq_of_lt la, Nat.mod_eq_of_lt lb] at h'
    exact List.ofFn_injective (ofLE_inj (by simp) h')
  unfold avg
  have hc : (Fintype.card (Fin k → Byte) : ℚ) = 2 ^ w := by
    have hB : Fintype.card Byte = 256 := by
      rw [Fintype.card_congr (⟨BitVec.toFin, BitVec.ofFin, fun _ => rfl, fun _ => rfl⟩ : Byte ≃ Fin (2 ^ 8)), Fintype.card_fin]
      norm_num
    rw [Fintype.card_fun, Fintype.card_fin, hB, hk]
    push_cast
    rfl
  rw [hc]
  apply div_le_div_of_nonneg_right _ (by positivity)
  by_cases hx : ∃ a : Fin k → Byte, wordAt w k (List.ofFn a) 0 = x
  · obtain ⟨a, ha⟩ := hx
    rw [Finset.sum_eq_single a]
    · exact indicator_le_one _
    · intro b _ hne
      exact indicator_false (fun h => hne (hinj b a (h.trans ha.symm)))
    · intro h
      exact absurd (Finset.mem_univ _) h
  · rw [Finset.sum_eq_zero]
    · norm_num
    · intro a _
      exact indicator_false (fun h => hx ⟨a, h⟩)

theorem C88_spread32 : Spread (fun x : Fin 4 → Byte => wordAt 32 4 (List.ofFn x) 0) (1 / 2 ^ 32) :=
  spread_bytes 32 4 (by norm_num)

theorem C88_spread128 : Spread (fun x : Fin 16 → Byte => wordAt 128 16 (List.ofFn x) 0) (1 / 2 ^ 128) :=
  spread_bytes 128 16 (by norm_num)

/-- A database of three rows and columns, uniform secrets and multipliers and noise of plus or minus one meet the
hypotheses; the noise is never too large then. -/
example (aesctr : List Byte → Nat → Byte) (F : List Byte → Res (List Byte)) (D : Res (List Byte) × Res Unit → ℚ)
    (hD : IsTest D) : ∃ db : Db 32, db.numRows = 3 ∧ db.numColumns = 3 ∧
    advantage (fun x : (Fin 4 → Byte) × (Fin 4400 → Byte) × (Fin 3 → Bool) => view lwe32 aesctr (paramsWithDatabaseSize 3 3) db F 2
        ⟨List.ofFn x.1, List.ofFn x.2.1, List.ofFn (fun r => if x.2.2 r then 1 else -1)⟩)
      (fun x : (Fin 4 → Byte) × (Fin 4400 → Byte) × (Fin 3 → Bool) => view lwe32 aesctr (paramsWithDatabaseSize 3 3) db F 7
        ⟨List.ofFn x.1, List.ofFn x.2.1, List.ofFn (fun r => if x.2.2 r then 1 else -1)⟩) D ≤ 1 / 2 ^ 10 + (
      hintGap (fun x : (Fin 4400 → Byte) × (Fin 3 → Bool) => secretVector lwe32 aesctr (paramsWithDatabaseSize 3 3) id
          (List.ofFn x.1) (List.ofFn (fun r => if x.2 r then 1 else -1)))
        (fun x => tolerance lwe32 (paramsWithDatabaseSize 3 3).b db
          (fun r => (List.ofFn (fun r => if x.2 r then 1 else -1)).getD r 0))
        (seeTest lwe32 db F (fun x : Fin 4 → Byte => wordAt 32 4 (List.ofFn x) 0) 0 D) +
      hintGap (fun x : (Fin 4400 → Byte) × (Fin 3 → Bool) => secretVector lwe32 aesctr (paramsWithDatabaseSize 3 3) id
          (List.ofFn x.1) (List.ofFn (fun r => if x.2 r then 1 else -1)))
        (fun x => tolerance lwe32 (paramsWithDatabaseSize 3 3).b db
          (fun r => (List.ofFn (fun r => if x.2 r then 1 else -1)).getD r 0))
        (seeTest lwe32 db F (fun x : Fin 4 → Byte => wordAt 32 4 (List.ofFn x) 0) 2 D) +
      lweGap (fun x : (Fin 4400 → Byte) × (Fin 3 → Bool) => secretVector lwe32 aesctr (paramsWithDatabaseSize 3 3) id
          (List.ofFn x.1) (List.ofFn (fun r => if x.2 r then 1 else -1)))
        (hitTest lwe32 db F 502 (range 3) (fun x : Fin 4 → Byte => wordAt 32 4 (List.ofFn x) 0) 0) +
      lweGap (fun x : (Fin 4400 → Byte) × (Fin 3 → Bool) => secretVector lwe32 aesctr (paramsWithDatabaseSize 3 3) id
          (List.ofFn x.1) (List.ofFn (fun r => if x.2 r then 1 else -1)))
        (hitTest lwe32 db F 502 (range 3) (fun x : Fin 4 → Byte => wordAt 32 4 (List.ofFn x) 0) 2)) := by
  obtain ⟨⟨db, hs, hr, hc⟩, -⟩ := setup_exists aesctr 3 3 [0b10110101, 1] (by decide) (by decide) (by decide)
    ⟨[], [], [1, 1, 1]⟩ (by decide) (by decide)
  have hno : ∀ x : Fin 3 → Bool, (List.ofFn (fun r => if x r then (1 : Int) else -1)).length = 3 ∧
      ∀ g ∈ List.ofFn (fun r => if x r then (1 : Int) else -1), |g| ≤ 128 := by decide
  have hb : (paramsWithDatabaseSize 3 3).b.toNat = 252 := by decide
  refine ⟨db, hr, hc, ?_⟩
  have h := C88_reaction_hides32 aesctr (paramsWithDatabaseSize 3 3) (by decide) db (fun x : Fin 4 → Byte => List.ofFn x)
    (fun x : (Fin 4400 → Byte) × (Fin 3 → Bool) => List.ofFn x.1)
    (fun x => List.ofFn (fun r => if x.2 r then 1 else -1))
    (fun τ ω => ⟨hs.valid, hs.params, hs.digest, hs.fits, by rw [hr]; exact (hno ω.2).1, (hno ω.2).2⟩) F _ C88_spread32
    2 7 (by rw [hr, hc]; decide) (by rw [hr, hc]; decide) D hD
  have hov : avg (fun x : (Fin 4400 → Byte) × (Fin 3 → Bool) => indicator (Overflow
      ((paramsWithDatabaseSize 3 3).b.toNat - 1) ((paramsWithDatabaseSize 3 3).b.toNat - 1) id db (range db.numColumns)
      (List.ofFn (fun r => if x.2 r then 1 else -1)))) = 0 := by
    rw [show (fun x : (Fin 4400 → Byte) × (Fin 3 → Bool) => indicator (Overflow
      ((paramsWithDatabaseSize 3 3).b.toNat - 1) ((paramsWithDatabaseSize 3 3).b.toNat - 1) id db (range db.numColumns)
      (List.ofFn (fun r => if x.2 r then 1 else -1)))) = fun _ => (0 : ℚ) from by
        funext x
        apply indicator_false
        rintro ⟨k, -, hk⟩
        apply hk
        rw [hb, hr]
        unfold columnNoise
        have hbit : ∀ r, (storedBit db.matrix r k : Int) = 0 ∨ (storedBit db.matrix r k : Int) = 1 := by
          intro r
          rcases bit_cases (w := 32) hs.valid.bin r k with ⟨e, -⟩ | ⟨e, -⟩ <;> rw [e] <;> simp
        have hval : ∀ r, r < 3 → (id ((List.ofFn (fun r => if x.2 r then (1 : Int) else -1)).getD r 0) = 1 ∨
            id ((List.ofFn (fun r => if x.2 r then (1 : Int) else -1)).getD r 0) = -1) := by
          generalize x.2 = f
          revert f
          decide
        rw [sum_range_succ, sum_range_succ, sum_range_succ, sum_range_zero]
        dsimp only
        rcases hbit 0 with e0 | e0 <;> rcases hbit 1 with e1 | e1 <;> rcases hbit 2 with e2 | e2 <;>
          rcases hval 0 (by decide) with f0 | f0 <;> rcases hval 1 (by decide) with f1 | f1 <;>
          rcases hval 2 (by decide) with f2 | f2 <;> rw [e0, e1, e2, f0, f1, f2] <;> norm_num]
    unfold avg
    simp only [sum_const_zero, zero_div]
  rw [hov] at h
  simp only [hc, hb, show 2 / 3 = 0 from rfl, show 7 / 3 = 2 from rfl,
    show ((2 * 252 - 2 : Nat) : Int) = 502 from rfl] at h
  have e : (2 : ℚ) * 0 + 2 * (((3 : Nat) : ℚ) * (2 * (2 * ((2 * 252 - 2 : Nat) : ℚ) + 1) * (1 / 2 ^ 32))) ≤ 1 / 2 ^ 10 := by
    norm_num
  linarith

/-- The hypotheses of C89 for the 128-bit client. -/
example (aesctr : List Byte → Nat → Byte) (F : List Byte → Res (List Byte)) : ∃ db : Db 128, ∃ bound : ℚ,
    avg (fun x : (Fin 16 → Byte) × (Fin 76800 → Byte) × (Fin 3 → Bool) => indicator (∃ b,
      retrieve lwe128 aesctr (paramsWithDatabaseSize128 3 3) db.numColumns db.digest
        ⟨List.ofFn x.1, List.ofFn x.2.1, List.ofFn (fun r => if x.2.2 r then 1 else -1)⟩ 4 F = ok b ∧
      b ≠ BitVec.ofNat 32 (storedBit db.matrix (4 / db.numColumns) (4 % db.numColumns)))) ≤ bound := by
  obtain ⟨-, ⟨db, hs, hr, hc⟩⟩ := setup_exists aesctr 3 3 [0b10110101, 1] (by decide) (by decide) (by decide)
    ⟨[], [], [1, 1, 1]⟩ (by decide) (by decide)
  have hno : ∀ x : Fin 3 → Bool, (List.ofFn (fun r => if x r then (1 : Int) else -1)).length = 3 ∧
      ∀ g ∈ List.ofFn (fun r => if x r then (1 : Int) else -1), |g| ≤ 128 := by decide
  exact ⟨db, _, C89_wrong_bit128 aesctr (paramsWithDatabaseSize128 3 3) (by decide) db
    (fun x : Fin 16 → Byte => List.ofFn x) (fun x : (Fin 76800 → Byte) × (Fin 3 → Bool) => List.ofFn x.1)
    (fun x => List.ofFn (fun r => if x.2 r then 1 else -1))
    (fun τ ω => ⟨hs.valid, hs.params, hs.digest, hs.fits, by rw [hr]; exact (hno ω.2).1, (hno ω.2).2⟩) F _ C88_spread128
    4 (by rw [hr, hc]; decide)⟩

end Verif.Lwe
