import Verif.Spec.LweHonest
import Verif.Spec.AmplifyStream
import Verif.Spec.Coins

/-! # Specification: sessions of amplified lattice lookups that an honest server answers

As in Spec/LweHonest, with the draws of Spec/AmplifyStream. -/

namespace Verif.AmplifyStream.Spec
open Res Verif.Rand Verif.Privacy Verif.Matrix Verif.Lwe Verif.Lwe.Spec Verif.Coins.Spec Verif.LweStream Verif.LweStream.Spec

/-- A lookup from an honest server with the draws `cs` gives the stored bit. -/
def RightAll (aesctr : List Byte → Nat → Byte) (p : Params) (db : Db 32) (i : Nat) (cs : List Coins) : Prop :=
  amplifyRetrieve aesctr p db.numColumns db.digest cs i (amplifyAnswerBytes db) =
    ok (BitVec.ofNat 32 (storedBit db.matrix (i / db.numColumns) (i % db.numColumns)))

/-- A lookup from an honest server with the draws `cs` gives no other bit than the stored one. -/
def SafeAll (aesctr : List Byte → Nat → Byte) (p : Params) (db : Db 32) (i : Nat) (cs : List Coins) : Prop :=
  ¬ WrongAll aesctr p db i (amplifyAnswerBytes db) cs

open Classical in
/-- The part of the random bytes of both generators for which not all of `n` lookups from an honest server end, each as `right`
demands. -/
noncomputable def missedPartAll (P : Past) (fl : ℚ → ℚ) (aesctr : List Byte → Nat → Byte) (p : Params) (db : Db 32) (t : Nat)
    (right : Nat → List Coins → Prop) (ask : List (Res (List Byte) × Res Unit) → Nat) (n : Nat) : ℚ :=
  avg (fun B : (Fin P.M → Byte) × (Fin (8 * P.N) → Byte) =>
    if ∃ ws, words (tape P.rest' (8 * P.m) (8 * P.N) B.2) P.m P.N = ok ws ∧
      Delivers (drawGroup fl 4 p.n db.numRows (2 * t + 1)) (fun i => watchAll aesctr p db i (amplifyAnswerBytes db)) right ask n []
        ⟨tape P.rest P.pos P.M B.1, P.pos⟩ ws then 0 else 1)

end Verif.AmplifyStream.Spec
