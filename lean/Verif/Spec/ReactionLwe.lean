import Verif.Spec.Reaction

/-! # Specification vocabulary for a lying server of the LWE schemes -/

namespace Verif.Lwe.Spec
open Verif.Matrix Verif.Lwe Verif.Privacy Verif.Reaction Res Finset

variable {w : Nat}

/-- What the server sees of a retrieval when it answers by `F`: the message, and how the client ends. -/
def view (S : Scheme w) (aesctr : List Byte → Nat → Byte) (p : Params) (db : Db w) (F : List Byte → Res (List Byte))
    (index : Nat) (coins : Coins) : Res (List Byte) × Res Unit :=
  match queryBytes S aesctr p db.numColumns db.digest coins index with
  | ok (st, q) => (ok q, ending (F q >>= reconstructBytes S p st))
  | err m => (err m, err m)
  | crash m => (crash m, crash m)

/-- Which deviations a client tolerates in which column, when the honest answer carries the noise `e`. -/
def tolerance (S : Scheme w) (b : U32) (db : Db w) (e : Nat → Int) (k : Nat) (δ : BitVec w) : Bool :=
  S.inRange b (BitVec.ofInt w (columnNoise e db.matrix db.numRows k) + δ)

/-- Going through the columns from `k` on: a column that is missing, or one that is not near enough to the wanted one. -/
def scan (near : Nat → BitVec w → Bool) (want : Nat → BitVec w) : Nat → Nat → List (BitVec w) → Res Unit
  | 0, _, _ => ok ()
  | _ + 1, _, [] => crash "index out of range"
  | n + 1, k, x :: xs => if near k (x - want k) then scan near want n (k + 1) xs else err "REJECT"

/-- How a client ends that compares the answer matrix with the honest answer `h`, tolerating what `near` says. -/
def compare (near : Nat → BitVec w → Bool) (h m : Mat w) : Res Unit :=
  if m.cols ≠ h.cols ∨ m.rows ≠ 1 then crash "Dimension mismatch"
  else if h.cols < m.data.length then crash "index out of range"
  else scan near (h.entry 0) h.cols 0 m.data

/-- How a client ends that compares the answer to the query `v` with the honest one. -/
def expected (S : Scheme w) (db : Db w) (F : List Byte → Res (List Byte)) {l : Nat} (v : Fin l → BitVec w)
    (near : Nat → BitVec w → Bool) : Res Unit := do
  let q ← rowMessage S.toBytes v
  let a ← F q
  let m ← S.ofBytes a
  let h ← answer S db ⟨1, l, List.ofFn v⟩
  compare near h m

/-- In one of the columns `ks` the server changes the honest answer by `t` or `-t`, up to `d`. -/
def Hits (S : Scheme w) (db : Db w) (F : List Byte → Res (List Byte)) (d : Int) (ks : Finset Nat) {l : Nat}
    (v : Fin l → BitVec w) (t : BitVec w) : Prop :=
  ∃ q a m h, rowMessage S.toBytes v = ok q ∧ F q = ok a ∧ S.ofBytes a = ok m ∧
    answer S db ⟨1, l, List.ofFn v⟩ = ok h ∧
    ∃ k ∈ ks, Within d (m.entry 0 k - h.entry 0 k - t) ∨ Within d (m.entry 0 k - h.entry 0 k + t)

/-- The test that adds a random multiplier at position `i` and shows `D` the message and the comparison of the answer with
the honest one. Of the noise it uses just the comparison. -/
def seeTest {T : Type} [Fintype T] (S : Scheme w) (db : Db w) (F : List Byte → Res (List Byte)) {l : Nat} (t : T → BitVec w)
    (i : Nat) (D : Res (List Byte) × Res Unit → ℚ) (x : (Fin l → BitVec w) × (Nat → BitVec w → Bool)) : ℚ :=
  avg (fun τ => D (rowMessage S.toBytes (shifted x.1 i (t τ)), expected S db F (shifted x.1 i (t τ)) x.2))

/-- The test that says yes when the server finds the multiplier added at position `i`, up to `d`. -/
noncomputable def hitTest {T : Type} [Fintype T] (S : Scheme w) (db : Db w) (F : List Byte → Res (List Byte)) (d : Int)
    (ks : Finset Nat) {l : Nat} (t : T → BitVec w) (i : Nat) (v : Fin l → BitVec w) : ℚ :=
  avg (fun τ => indicator (Hits S db F d ks (shifted v i (t τ)) (t τ)))

/-- The advantage of a test in telling `s A + e` from a uniform vector. -/
def lweGap {Ω : Type} [Fintype Ω] {l : Nat} (v : Ω → Fin l → BitVec w) (B : (Fin l → BitVec w) → ℚ) : ℚ := advantage v id B

/-- The same when the test may use what `near` reveals of the noise; the uniform vector comes with unrelated noise. -/
def hintGap {Ω : Type} [Fintype Ω] {l : Nat} (v : Ω → Fin l → BitVec w) (near : Ω → Nat → BitVec w → Bool)
    (B : (Fin l → BitVec w) × (Nat → BitVec w → Bool) → ℚ) : ℚ :=
  advantage (fun ω => (v ω, near ω)) (fun x : (Fin l → BitVec w) × Ω => (x.1, near x.2)) B

/-- The vector `s A + e` of a client with the given coins. -/
def secretVector (S : Scheme w) (aesctr : List Byte → Nat → Byte) (p : Params) (nz : Int → Int) (sB : List Byte)
    (noise : List Int) : Fin p.l → BitVec w :=
  lweVector p.n p.l (seedMatrix aesctr w S.k p.seedA p.n p.l).entry (wordAt w S.k sB) (fun r => nz (noise.getD r 0))

/-- The noise in one of the columns `ks` leaves the interval from `-lo` to `hi`. -/
def Overflow (lo hi : Int) (nz : Int → Int) (db : Db w) (ks : Finset Nat) (noise : List Int) : Prop :=
  ∃ k ∈ ks, ¬ (-lo ≤ columnNoise (fun r => nz (noise.getD r 0)) db.matrix db.numRows k ∧
    columnNoise (fun r => nz (noise.getD r 0)) db.matrix db.numRows k ≤ hi)

/-- No word is the multiplier with probability above `ε`. -/
def Spread {T : Type} [Fintype T] (t : T → BitVec w) (ε : ℚ) : Prop := ∀ x, avg (fun τ => indicator (t τ = x)) ≤ ε

end Verif.Lwe.Spec
