import Verif.Lemmas.Privacy
import Verif.Props.Lwe
import Verif.Props.Dh
import Mathlib.Data.ZMod.Defs

/-! # C53: index privacy of the single-server schemes, reduced to the underlying problems

For every test, the advantage in telling the queries for two indices apart is at most the sum of the advantages of two
tests for the underlying problem. The latter are the given test applied to the challenge with a random value added at
one position (`lweTest`, `dhTest`), so they cost no more than the given test and one addition. -/

namespace Verif.Lwe
open Res Verif.Matrix Verif.Privacy Finset

variable {w : Nat}

/-- The message of a retrieval as the server sees it. -/
def sentBytes (S : Scheme w) (aesctr : List Byte → Nat → Byte) (p : Params) (numColumns : Nat) (digest : Mat w)
    (index : Nat) (coins : Coins) : Res (List Byte) := do
  let r ← queryBytes S aesctr p numColumns digest coins index
  ok r.2

theorem sentBytes_eq {S : Scheme w} {lo hi : Int} {nz : Int → Int} (aesctr : List Byte → Nat → Byte) (p : Params)
    (G : Good S lo hi nz p.b) (nc : Nat) (dg : Mat w) (coins : Coins) (index : Nat) (hf : FitsInt 1 p.n p.l)
    (hlen : coins.noise.length = p.l) (hno : ∀ g ∈ coins.noise, |g| ≤ 128) (hi' : index < p.l * nc) :
    sentBytes S aesctr p nc dg index coins = rowMessage S.toBytes (shifted (lweVector p.n p.l
      (seedMatrix aesctr w S.k p.seedA p.n p.l).entry (wordAt w S.k coins.sBytes) (fun r => nz (coins.noise.getD r 0)))
      (index / nc) (wordAt w S.k coins.tBytes 0)) := by
  have hnc : 0 < nc := by
    rcases Nat.eq_zero_or_pos nc with h | h
    · rw [h] at hi'; omega
    · exact h
  have hrow : index / nc < p.l := by
    rw [Nat.div_lt_iff_lt_mul hnc]; exact hi'
  obtain ⟨q, h1, h2, h3, h4, h5⟩ := query_spec aesctr p G dg coins (index / nc) (index % nc) hf hlen hno hrow
  obtain ⟨qb, hqb⟩ := G.enc q
  unfold sentBytes queryBytes
  rw [if_neg (by omega), h1, ok_bind]
  dsimp only
  rw [hqb, ok_bind, ok_bind]
  unfold rowMessage
  rw [← hqb]
  congr 1
  obtain ⟨rows, cols, data⟩ := q
  simp only at h2 h3
  subst h2 h3
  congr 1
  unfold Mat.WellFormed at h4
  simp only [Nat.one_mul] at h4
  apply List.ext_getElem (by simp [h4])
  intro r hr1 hr2
  have hr : r < p.l := by simpa using hr2
  have e := h5 r hr
  unfold Mat.entry queryEntry at e
  simp only [Nat.zero_mul, Nat.zero_add, List.getD_eq_getElem?_getD, List.getElem?_eq_getElem hr1,
    Option.getD_some] at e
  rw [e, List.getElem_ofFn]
  unfold shifted lweVector
  simp only
  congr 2
  · apply sum_congr rfl
    intro k hk
    have hk : k < p.n := mem_range.1 hk
    congr 1
    unfold ofRandom wordAt
    simp [hk]

/-- The reduction, for either scheme. -/
theorem lwe_privacy {S : Scheme w} {lo hi : Int} {nz : Int → Int} {Ω T : Type} [Fintype Ω] [Fintype T]
    (aesctr : List Byte → Nat → Byte) (p : Params)
    (G : Good S lo hi nz p.b) (nc : Nat) (dg : Mat w) (hf : FitsInt 1 p.n p.l) (tB : T → List Byte)
    (sB : Ω → List Byte) (noise : Ω → List Int)
    (hlen : ∀ ω, (noise ω).length = p.l) (hno : ∀ ω, ∀ g ∈ noise ω, |g| ≤ 128) (i i' : Nat) (hi : i < p.l * nc)
    (hi' : i' < p.l * nc) (D : Res (List Byte) → ℚ) :
    advantage (fun x : T × Ω => sentBytes S aesctr p nc dg i ⟨tB x.1, sB x.2, noise x.2⟩)
        (fun x : T × Ω => sentBytes S aesctr p nc dg i' ⟨tB x.1, sB x.2, noise x.2⟩) D ≤
      advantage (fun ω => lweVector p.n p.l (seedMatrix aesctr w S.k p.seedA p.n p.l).entry (wordAt w S.k (sB ω))
        (fun r => nz ((noise ω).getD r 0))) id (lweTest S.toBytes (fun τ => wordAt w S.k (tB τ) 0) (i / nc) D) +
      advantage (fun ω => lweVector p.n p.l (seedMatrix aesctr w S.k p.seedA p.n p.l).entry (wordAt w S.k (sB ω))
        (fun r => nz ((noise ω).getD r 0))) id (lweTest S.toBytes (fun τ => wordAt w S.k (tB τ) 0) (i' / nc) D) := by
  have e : ∀ k, k < p.l * nc → avg (fun x : T × Ω => D (sentBytes S aesctr p nc dg k ⟨tB x.1, sB x.2, noise x.2⟩)) =
      avg (fun ω => lweTest S.toBytes (fun τ => wordAt w S.k (tB τ) 0) (k / nc) D
        (lweVector p.n p.l (seedMatrix aesctr w S.k p.seedA p.n p.l).entry (wordAt w S.k (sB ω))
          (fun r => nz ((noise ω).getD r 0)))) := by
    intro k hk
    rw [avg_prod]
    apply avg_congr
    intro ω
    apply avg_congr
    intro τ
    rw [sentBytes_eq aesctr p G nc dg _ k hf (hlen ω) (hno ω) hk]
  have u : ∀ k, avg (fun v : Fin p.l → BitVec w => lweTest S.toBytes (fun τ => wordAt w S.k (tB τ) 0) k D v) =
      avg (fun x : T × (Fin p.l → BitVec w) => D (rowMessage S.toBytes x.2)) := by
    intro k
    have := avg_shifted (fun _ : T => k) (fun τ => wordAt w S.k (tB τ) 0)
      (fun v : Fin p.l → BitVec w => D (rowMessage S.toBytes v))
    rw [← this, avg_prod]
    rfl
  have key : |_| ≤ _ := advantage_via (B := id) (x := fun ω => lweTest S.toBytes (fun τ => wordAt w S.k (tB τ) 0) (i / nc) D
        (lweVector p.n p.l (seedMatrix aesctr w S.k p.seedA p.n p.l).entry (wordAt w S.k (sB ω))
          (fun r => nz ((noise ω).getD r 0))))
      (y := fun ω => lweTest S.toBytes (fun τ => wordAt w S.k (tB τ) 0) (i' / nc) D
        (lweVector p.n p.l (seedMatrix aesctr w S.k p.seedA p.n p.l).entry (wordAt w S.k (sB ω))
          (fun r => nz ((noise ω).getD r 0))))
      ((u (i / nc)).trans (u (i' / nc)).symm)
  unfold advantage
  rw [e i hi, e i' hi']
  exact key

/-- C53 for the 32-bit LWE client: for every test on the message sent, the advantage in telling two indices apart is at
most the sum of two advantages in telling the vector `s A + e` from a uniform one. The secret and the noise have any
joint distribution, the multiplier is independent of them; `A` is the public matrix both sides derive from the seed. -/
theorem C53_lwe {Ω T : Type} [Fintype Ω] [Fintype T] (aesctr : List Byte → Nat → Byte) (p : Params)
    (hb : 0 < p.b.toNat) (nc : Nat) (dg : Mat 32) (hf : FitsInt 1 p.n p.l) (tB : T → List Byte)
    (sB : Ω → List Byte) (noise : Ω → List Int)
    (hlen : ∀ ω, (noise ω).length = p.l) (hno : ∀ ω, ∀ g ∈ noise ω, |g| ≤ 128) (i i' : Nat) (hi : i < p.l * nc)
    (hi' : i' < p.l * nc) (D : Res (List Byte) → ℚ) :
    advantage (fun x : T × Ω => sentBytes lwe32 aesctr p nc dg i ⟨tB x.1, sB x.2, noise x.2⟩)
        (fun x : T × Ω => sentBytes lwe32 aesctr p nc dg i' ⟨tB x.1, sB x.2, noise x.2⟩) D ≤
      advantage (fun ω => lweVector p.n p.l (seedMatrix aesctr 32 4 p.seedA p.n p.l).entry (wordAt 32 4 (sB ω))
        (fun r => (noise ω).getD r 0)) id (lweTest matrixToBytes (fun τ => wordAt 32 4 (tB τ) 0) (i / nc) D) +
      advantage (fun ω => lweVector p.n p.l (seedMatrix aesctr 32 4 p.seedA p.n p.l).entry (wordAt 32 4 (sB ω))
        (fun r => (noise ω).getD r 0)) id (lweTest matrixToBytes (fun τ => wordAt 32 4 (tB τ) 0) (i' / nc) D) :=
  lwe_privacy aesctr p (good32 p.b hb) nc dg hf tB sB noise hlen hno i i' hi hi' D

/-- C53 for the 128-bit LWE client. -/
theorem C53_lwe128 {Ω T : Type} [Fintype Ω] [Fintype T] (aesctr : List Byte → Nat → Byte) (p : Params)
    (hb : p.b.toNat < 2 ^ 32 - 1) (nc : Nat) (dg : Mat 128) (hf : FitsInt 1 p.n p.l) (tB : T → List Byte)
    (sB : Ω → List Byte) (noise : Ω → List Int)
    (hlen : ∀ ω, (noise ω).length = p.l) (hno : ∀ ω, ∀ g ∈ noise ω, |g| ≤ 128) (i i' : Nat) (hi : i < p.l * nc)
    (hi' : i' < p.l * nc) (D : Res (List Byte) → ℚ) :
    advantage (fun x : T × Ω => sentBytes lwe128 aesctr p nc dg i ⟨tB x.1, sB x.2, noise x.2⟩)
        (fun x : T × Ω => sentBytes lwe128 aesctr p nc dg i' ⟨tB x.1, sB x.2, noise x.2⟩) D ≤
      advantage (fun ω => lweVector p.n p.l (seedMatrix aesctr 128 16 p.seedA p.n p.l).entry (wordAt 128 16 (sB ω))
        (fun r => noise128 ((noise ω).getD r 0))) id
        (lweTest matrix128ToBytes (fun τ => wordAt 128 16 (tB τ) 0) (i / nc) D) +
      advantage (fun ω => lweVector p.n p.l (seedMatrix aesctr 128 16 p.seedA p.n p.l).entry (wordAt 128 16 (sB ω))
        (fun r => noise128 ((noise ω).getD r 0))) id
        (lweTest matrix128ToBytes (fun τ => wordAt 128 16 (tB τ) 0) (i' / nc) D) :=
  lwe_privacy aesctr p (good128 p.b hb) nc dg hf tB sB noise hlen hno i i' hi hi' D

/-- The default parameters of a database of 10 rows and 20 columns, a secret and a multiplier of random bytes and noise
without bias meet the hypotheses. -/
example (aesctr : List Byte → Nat → Byte) (dg : Mat 32) (D : Res (List Byte) → ℚ) :
    advantage (fun x : (Fin 4 → Byte) × (Fin 4400 → Byte) × (Fin 10 → Bool) =>
        sentBytes lwe32 aesctr (paramsWithDatabaseSize 10 20) 20 dg 7
          ⟨List.ofFn x.1, List.ofFn x.2.1, List.ofFn (fun r => if x.2.2 r then 1 else -1)⟩)
      (fun x : (Fin 4 → Byte) × (Fin 4400 → Byte) × (Fin 10 → Bool) =>
        sentBytes lwe32 aesctr (paramsWithDatabaseSize 10 20) 20 dg 199
          ⟨List.ofFn x.1, List.ofFn x.2.1, List.ofFn (fun r => if x.2.2 r then 1 else -1)⟩) D ≤
      advantage (fun x : (Fin 4400 → Byte) × (Fin 10 → Bool) => lweVector 1100 10
          (seedMatrix aesctr 32 4 seedMatrixA 1100 10).entry (wordAt 32 4 (List.ofFn x.1))
          (fun r => (List.ofFn (fun r => if x.2 r then (1 : Int) else -1)).getD r 0)) id
        (lweTest matrixToBytes (fun x : Fin 4 → Byte => wordAt 32 4 (List.ofFn x) 0) (7 / 20) D) +
      advantage (fun x : (Fin 4400 → Byte) × (Fin 10 → Bool) => lweVector 1100 10
          (seedMatrix aesctr 32 4 seedMatrixA 1100 10).entry (wordAt 32 4 (List.ofFn x.1))
          (fun r => (List.ofFn (fun r => if x.2 r then (1 : Int) else -1)).getD r 0)) id
        (lweTest matrixToBytes (fun x : Fin 4 → Byte => wordAt 32 4 (List.ofFn x) 0) (199 / 20) D) :=
  C53_lwe aesctr (paramsWithDatabaseSize 10 20) (by decide) 20 dg (by decide) (fun x => List.ofFn x)
    (fun x : (Fin 4400 → Byte) × (Fin 10 → Bool) => List.ofFn x.1)
    (fun x => List.ofFn (fun r => if x.2 r then 1 else -1)) (by intro x; simp [paramsWithDatabaseSize])
    (by
      intro x g hg
      rw [List.mem_ofFn] at hg
      obtain ⟨r, rfl⟩ := hg
      split <;> decide)
    7 199 (by decide) (by decide) D

end Verif.Lwe

namespace Verif.Dh
open Res Verif.Privacy Verif.Dh.Spec Finset

variable {G : Type} [AddCommGroup G] [DecidableEq G]

/-- The message of a retrieval as the server sees it. -/
def sentBytes (g : Grp G) (info : Info) (index : Int) (r t : Int) : Res (List Byte) := do
  let q ← queryBytes g info r t index
  ok q.1

omit [DecidableEq G] in
theorem sentBytes_eq (g : Grp G) (info : Info) (r t : Int) (k : Nat) (hC : 0 < info.numColumns)
    (hC64 : info.numColumns ≤ 2 ^ 64) :
    sentBytes g info k r t = ok (elementMessage g.enc (shifted (fun j : Fin info.numColumns => r • hashIndexToGroup g j)
      (k % info.numColumns) (t • hashIndexToGroup g (k % info.numColumns)))) := by
  unfold sentBytes
  rw [query_eq g info r t k hC hC64, ok_bind]
  dsimp only
  rw [marshal_eq]
  unfold elementMessage
  congr 2
  apply List.ext_getElem (by simp)
  intro j h1 h2
  simp [shifted, queryElement]

omit [DecidableEq G] in
/-- C53 for the group-based client: for every test on the message sent, the advantage in telling two indices apart is at
most the sum of two advantages in telling the common multiple of the column generators from uniform group elements (for
random generators this follows from the decisional Diffie-Hellman assumption). The scalars `r` and `t` are independent
and have any distribution. -/
theorem C53_dh {Ω T : Type} [Fintype Ω] [Fintype T] [Fintype G] (g : Grp G) (info : Info)
    (hC : 0 < info.numColumns) (hC64 : info.numColumns ≤ 2 ^ 64) (r : Ω → Int) (t : T → Int) (i i' : Nat)
    (D : Res (List Byte) → ℚ) :
    advantage (fun x : T × Ω => sentBytes g info i (r x.2) (t x.1))
        (fun x : T × Ω => sentBytes g info i' (r x.2) (t x.1)) D ≤
      advantage (fun ω => fun j : Fin info.numColumns => r ω • hashIndexToGroup g j) id
        (dhTest g.enc (hashIndexToGroup g) t (i % info.numColumns) D) +
      advantage (fun ω => fun j : Fin info.numColumns => r ω • hashIndexToGroup g j) id
        (dhTest g.enc (hashIndexToGroup g) t (i' % info.numColumns) D) := by
  have e : ∀ k : Nat, avg (fun x : T × Ω => D (sentBytes g info k (r x.2) (t x.1))) =
      avg (fun ω => dhTest g.enc (hashIndexToGroup g) t (k % info.numColumns) D
        (fun j : Fin info.numColumns => r ω • hashIndexToGroup g j)) := by
    intro k
    rw [avg_prod]
    apply avg_congr
    intro ω
    apply avg_congr
    intro τ
    rw [sentBytes_eq g info _ _ k hC hC64]
  have u : ∀ k, avg (fun v : Fin info.numColumns → G => dhTest g.enc (hashIndexToGroup g) t k D v) =
      avg (fun x : T × (Fin info.numColumns → G) => D (ok (elementMessage g.enc x.2))) := by
    intro k
    have := avg_shifted (fun _ : T => k) (fun τ => t τ • hashIndexToGroup g k)
      (fun v : Fin info.numColumns → G => D (ok (elementMessage g.enc v)))
    rw [← this, avg_prod]
    rfl
  have key : |_| ≤ _ := advantage_via (B := id)
      (x := fun ω => dhTest g.enc (hashIndexToGroup g) t (i % info.numColumns) D
        (fun j : Fin info.numColumns => r ω • hashIndexToGroup g j))
      (y := fun ω => dhTest g.enc (hashIndexToGroup g) t (i' % info.numColumns) D
        (fun j : Fin info.numColumns => r ω • hashIndexToGroup g j))
      ((u (i % info.numColumns)).trans (u (i' % info.numColumns)).symm)
  unfold advantage
  rw [e i, e i']
  exact key

/-- A group of order five and a database of three columns. -/
example (D : Res (List Byte) → ℚ) :=
  C53_dh (G := ZMod 5) (Ω := Fin 5) (T := Fin 5) ⟨fun x => [BitVec.ofNat 8 x.val], fun _ => err "", fun b => b.length⟩
    ⟨4, 3, 1, [], []⟩ (by decide) (by decide) (fun r => r.val) (fun t => t.val) 2 7 D

end Verif.Dh
