import Verif.Spec.Lwe
import Verif.Spec.Dh
import Mathlib.Data.Fintype.BigOperators
import Mathlib.Data.Rat.Defs
import Mathlib.Algebra.Order.Field.Rat
import Mathlib.Algebra.Order.Group.Unbundled.Abs

/-! # Specification vocabulary for privacy: tests on what a server sees, and the computational problems

A test is a function from views to rational numbers; for a randomised test this is the probability of answering yes.
Secrets are drawn uniformly from a finite type; distributions that are not uniform are images of uniform ones. -/

namespace Verif.Privacy
open Res Finset

/-- The mean of `f` over a uniformly drawn `ω`. -/
def avg {Ω : Type} [Fintype Ω] (f : Ω → ℚ) : ℚ := (∑ ω, f ω) / Fintype.card Ω

/-- Words are finitely many. -/
instance wordFintype {w : Nat} : Fintype (BitVec w) :=
  Fintype.ofEquiv (Fin (2 ^ w)) ⟨BitVec.ofFin, BitVec.toFin, fun _ => rfl, fun _ => rfl⟩

/-- The advantage of the test `B` in telling the distribution of `x` from that of `y`. -/
def advantage {Ω Ω' V : Type} [Fintype Ω] [Fintype Ω'] (x : Ω → V) (y : Ω' → V) (B : V → ℚ) : ℚ :=
  |avg (fun ω => B (x ω)) - avg (fun ω => B (y ω))|

/-! ### Learning with errors -/

/-- A vector of products of a secret with the columns of a public matrix, plus noise. -/
def lweVector {w : Nat} (n l : Nat) (A : Nat → Nat → BitVec w) (s : Nat → BitVec w) (e : Nat → Int) (r : Fin l) :
    BitVec w := ∑ k ∈ range n, s k * A k r + BitVec.ofInt w (e r)

/-- The vector `v` with `t` added at position `i`. -/
def shifted {l : Nat} {V : Type} [Add V] [Zero V] (v : Fin l → V) (i : Nat) (t : V) (r : Fin l) : V :=
  v r + if (r : Nat) = i then t else 0

/-- The message carrying a vector: a matrix with one row. -/
def rowMessage {w : Nat} (toBytes : Matrix.Mat w → Res (List Byte)) {l : Nat} (v : Fin l → BitVec w) :
    Res (List Byte) := toBytes ⟨1, l, List.ofFn v⟩

/-- Word `j` of the bytes `b`: `k` bytes, little-endian. -/
def wordAt (w k : Nat) (b : List Byte) (j : Nat) : BitVec w := BitVec.ofNat w (ofLE ((b.drop (k * j)).take k))

/-- The test for the learning-with-errors problem made from a test `D` on messages: draw a multiplier, add it at
position `i` and show the result to `D`. -/
def lweTest {w l : Nat} {T : Type} [Fintype T] (toBytes : Matrix.Mat w → Res (List Byte)) (t : T → BitVec w) (i : Nat)
    (D : Res (List Byte) → ℚ) (v : Fin l → BitVec w) : ℚ :=
  avg (fun τ => D (rowMessage toBytes (shifted v i (t τ))))

/-! ### Groups -/

/-- The message carrying a vector of group elements: their encodings one after the other. -/
def elementMessage {G : Type} (enc : G → List Byte) {l : Nat} (v : Fin l → G) : List Byte :=
  (List.ofFn v).flatMap enc

/-- The test for the Diffie-Hellman problem made from a test `D` on messages: draw a scalar, add its multiple of the
generator of column `i` at position `i` and show the result to `D`. -/
def dhTest {G T : Type} [AddCommGroup G] [Fintype T] {l : Nat} (enc : G → List Byte) (h : Nat → G) (t : T → Int)
    (i : Nat) (D : Res (List Byte) → ℚ) (v : Fin l → G) : ℚ :=
  avg (fun τ => D (ok (elementMessage enc (shifted v i (t τ • h i)))))

end Verif.Privacy
