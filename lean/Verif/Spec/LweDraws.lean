import Verif.Spec.LweReal
import Verif.Spec.ReactionAmplify

/-! # Specification: a lying server of the amplified LWE client that draws from its own generators -/

namespace Verif.LweDraws.Spec
open Res Verif.Privacy Verif.Matrix Verif.Lwe Verif.Lwe.Spec Verif.Gauss Verif.Coins.Spec Verif.Reaction Verif.LweReal.Spec

/-- The draws are complete, and with them the amplified client takes from a server that answers by `F` a bit that is not
stored. -/
def WrongFrom (aesctr : List Byte → Nat → Byte) (p : Params) (db : Db 32) (F : List Byte → Res (List Byte))
    (index : Nat) (r : Res (List Coins)) : Prop :=
  ∃ coins b, r = ok coins ∧ amplifyRetrieve aesctr p db.numColumns db.digest coins index F = ok b ∧
    b ≠ BitVec.ofNat 32 (storedBit db.matrix (index / db.numColumns) (index % db.numColumns))

/-- What the server sees: nothing if the draws do not come to an end, otherwise the message and the way the client ends. -/
def sees (aesctr : List Byte → Nat → Byte) (p : Params) (db : Db 32) (F : List Byte → Res (List Byte)) (index : Nat) :
    Res (List Coins) → Option (Res (List Byte) × Res Unit)
  | ok coins => some (viewAll aesctr p db F index coins)
  | _ => none

/-- The average of a test over what the server sees of an amplified client with `2t+1` base clients whose generators deliver
random bytes. -/
noncomputable def seen (P : Past) (fl : ℚ → ℚ) (aesctr : List Byte → Nat → Byte) (p : Params) (db : Db 32) (t : Nat)
    (F : List Byte → Res (List Byte)) (index : Nat) (D : Option (Res (List Byte) × Res Unit) → ℚ) : ℚ :=
  avg (fun B : (Fin P.M → Byte) × (Fin (8 * P.N) → Byte) =>
    D (sees aesctr p db F index (amplifiedDraws P fl p.n db.numRows t B.1 B.2)))

/-- What a server sees that does not learn how the client ends. -/
def hears (aesctr : List Byte → Nat → Byte) (p : Params) (numColumns : Nat) (digest : Mat 32) (index : Nat) :
    Res (List Coins) → Option (Res (List Byte))
  | ok coins => some (sentAll aesctr p numColumns digest index coins)
  | _ => none

/-- The average of a test over the message of such a client. -/
noncomputable def heard (P : Past) (fl : ℚ → ℚ) (aesctr : List Byte → Nat → Byte) (p : Params) (numColumns : Nat)
    (digest : Mat 32) (t index : Nat) (D : Option (Res (List Byte)) → ℚ) : ℚ :=
  avg (fun B : (Fin P.M → Byte) × (Fin (8 * P.N) → Byte) =>
    D (hears aesctr p numColumns digest index (amplifiedDraws P fl p.n p.l t B.1 B.2)))

end Verif.LweDraws.Spec
