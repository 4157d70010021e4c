import Verif.Spec.Coins
import Verif.Spec.ReactionLwe

/-! # Specification: a lying server of the LWE schemes and a client with its own generators -/

namespace Verif.LweReal.Spec
open Res Verif.Privacy Verif.Matrix Verif.Lwe Verif.Lwe.Spec Verif.Gauss Verif.Coins.Spec Verif.Reaction

variable {w : Nat}

/-- The draws are complete, and with them the client takes from a server that answers by `F` a bit that is not stored. -/
def WrongFrom (S : Scheme w) (aesctr : List Byte → Nat → Byte) (p : Params) (db : Db w) (F : List Byte → Res (List Byte))
    (index : Nat) (r : Res Coins) : Prop :=
  ∃ coins b, r = ok coins ∧ retrieve S aesctr p db.numColumns db.digest coins index F = ok b ∧
    b ≠ BitVec.ofNat 32 (storedBit db.matrix (index / db.numColumns) (index % db.numColumns))

/-- What the server sees: nothing if the draws do not come to an end, otherwise the message and the way the client ends. -/
def sees (S : Scheme w) (aesctr : List Byte → Nat → Byte) (p : Params) (db : Db w) (F : List Byte → Res (List Byte))
    (index : Nat) : Res Coins → Option (Res (List Byte) × Res Unit)
  | ok coins => some (view S aesctr p db F index coins)
  | _ => none

/-- The average of a test over what the server sees of a client whose generators deliver random bytes. -/
noncomputable def seen (P : Past) (fl : ℚ → ℚ) (k : Nat) (S : Scheme w) (aesctr : List Byte → Nat → Byte) (p : Params)
    (db : Db w) (F : List Byte → Res (List Byte)) (index : Nat) (D : Option (Res (List Byte) × Res Unit) → ℚ) : ℚ :=
  avg (fun B : (Fin P.M → Byte) × (Fin (8 * P.N) → Byte) =>
    D (sees S aesctr p db F index (draws P fl k p.n db.numRows B.1 B.2)))

/-- The first `l` noise values made from random words; zeros if the words do not suffice. -/
def noiseFrom (fl : ℚ → ℚ) (l : Nat) (ws : List (BitVec 64)) : List Int :=
  match gaussSamples fl l ws with
  | ok r => r.1
  | _ => List.replicate l 0

/-- A uniform secret and noise made from `N` random words. -/
abbrev Sample (k n N : Nat) : Type := (Fin (k * n) → Byte) × (Fin N → BitVec 64)

/-- The instance of the LWE problem: `s A + e` for the matrix of the parameters, a uniform `s` and sampled noise `e`. -/
def instanceOf (fl : ℚ → ℚ) (k : Nat) (S : Scheme w) (aesctr : List Byte → Nat → Byte) (p : Params) (nz : Int → Int) (N : Nat)
    (x : Sample k p.n N) : Fin p.l → BitVec w :=
  secretVector S aesctr p nz (List.ofFn x.1) (noiseFrom fl p.l (List.ofFn x.2))

/-- What the comparison with the noise of the instance tolerates. -/
def toleranceOf (fl : ℚ → ℚ) (k n : Nat) (S : Scheme w) (b : U32) (db : Db w) (nz : Int → Int) (N : Nat)
    (x : Sample k n N) : Nat → BitVec w → Bool :=
  tolerance S b db (fun r => nz ((noiseFrom fl db.numRows (List.ofFn x.2)).getD r 0))

/-- The multiplier read from `k` random bytes. -/
def multiplierOf (w k : Nat) (τ : Fin k → Byte) : BitVec w := wordAt w k (List.ofFn τ) 0

end Verif.LweReal.Spec
