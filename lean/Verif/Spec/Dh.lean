import Verif.Model.Dh
import Mathlib.Algebra.BigOperators.Group.Finset.Basic

/-! # Specification vocabulary for the group-based scheme -/

namespace Verif.Dh.Spec
open Verif.Dh Res Finset

variable {G : Type} [AddCommGroup G]

/-- Whether the bit in row `i` and column `j` is set. -/
def Bit (db : Elliptic) (i j : Nat) : Prop := db.entries.getD (i * db.info.numColumns + j) 0 = 1

instance (db : Elliptic) (i j : Nat) : Decidable (Bit db i j) := by unfold Bit; infer_instance

/-- The sum of the elements `x 0, x 1, ...` over the set bits of row `i`. -/
def rowSum (db : Elliptic) (x : Nat → G) (i : Nat) : G :=
  ∑ j ∈ range db.info.numColumns, if Bit db i j then x j else 0

/-- The elements the client sends for column `y`: multiples of the column generators, blinded at `y`. -/
def queryElement (h : Nat → G) (r t : Int) (y j : Nat) : G := r • h j + if j = y then t • h y else 0

/-- The database is complete and its row digests are those of its rows. -/
structure Committed (g : Grp G) (db : Elliptic) : Prop where
  complete : db.entries.length = db.info.numRows * db.info.numColumns
  digests : db.info.subDigests =
    (List.range db.info.numRows).flatMap (fun i => g.enc (rowSum db (hashIndexToGroup g) i))

/-- The library decodes what it encoded. -/
def Decodes (g : Grp G) : Prop := ∀ x, g.dec (g.enc x) = ok x

/-- All elements have encodings of the same length, as in the ristretto group. -/
def FixedSize (g : Grp G) (n : Nat) : Prop := 0 < n ∧ ∀ x, (g.enc x).length = n

/-- All elements but the neutral one have encodings of the same length, and the neutral one has an encoding of one
byte, as in the NIST curves. -/
def ShortIdentity (g : Grp G) (n : Nat) : Prop :=
  1 < n ∧ (g.enc 0).length = 1 ∧ ∀ x, x ≠ 0 → (g.enc x).length = n

end Verif.Dh.Spec
