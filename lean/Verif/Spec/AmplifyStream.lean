import Verif.Spec.LweStream
import Verif.Spec.LweDraws

/-! # Specification: sessions of amplified lattice lookups by one client object

Every lookup takes the draws of its `2t+1` base clients one after the other from the generator the amplified client was made with and
from the generator shared by the process. -/

namespace Verif.AmplifyStream.Spec
open Res Verif.Rand Verif.Privacy Verif.Matrix Verif.Lwe Verif.Lwe.Spec Verif.Coins.Spec Verif.Reaction Verif.History
  Verif.LweReal.Spec Verif.LweStream Verif.LweStream.Spec

/-- What the server sees of one lookup: the message and the way the client ends. -/
def watchAll (aesctr : List Byte → Nat → Byte) (p : Params) (db : Db 32) (i : Nat) (F : List Byte → Res (List Byte))
    (cs : List Coins) : Res (List Byte) × Res Unit := viewAll aesctr p db F i cs

/-- The client takes a bit that is not stored. -/
def WrongAll (aesctr : List Byte → Nat → Byte) (p : Params) (db : Db 32) (i : Nat) (F : List Byte → Res (List Byte))
    (cs : List Coins) : Prop :=
  ∃ b, amplifyRetrieve aesctr p db.numColumns db.digest cs i F = ok b ∧
    b ≠ BitVec.ofNat 32 (storedBit db.matrix (i / db.numColumns) (i % db.numColumns))

/-- The average decision over the random bytes of both generators after `n` lookups with `2t+1` base clients. -/
noncomputable def decisionAll (P : Past) (fl : ℚ → ℚ) (aesctr : List Byte → Nat → Byte) (p : Params) (db : Db 32) (t : Nat)
    (srv : Server Nat (List Byte → Res (List Byte)) (Res (List Byte) × Res Unit))
    (hang : List (Res (List Byte) × Res Unit) → ℚ) (right : Bool) (n : Nat) : ℚ :=
  avg (fun B : (Fin P.M → Byte) × (Fin (8 * P.N) → Byte) =>
    match words (tape P.rest' (8 * P.m) (8 * P.N) B.2) P.m P.N with
    | ok ws => decides (drawGroup fl 4 p.n db.numRows (2 * t + 1)) (watchAll aesctr p db) srv hang right n []
        ⟨tape P.rest P.pos P.M B.1, P.pos⟩ ws
    | _ => hang [])

open Classical in
/-- The part of the random bytes of both generators for which one of `n` lookups gives a bit that is not stored. -/
noncomputable def wrongPartAll (P : Past) (fl : ℚ → ℚ) (aesctr : List Byte → Nat → Byte) (p : Params) (db : Db 32) (t : Nat)
    (srv : Server Nat (List Byte → Res (List Byte)) (Res (List Byte) × Res Unit)) (n : Nat) : ℚ :=
  avg (fun B : (Fin P.M → Byte) × (Fin (8 * P.N) → Byte) =>
    if ∃ ws, words (tape P.rest' (8 * P.m) (8 * P.N) B.2) P.m P.N = ok ws ∧
      GoesWrong (drawGroup fl 4 p.n db.numRows (2 * t + 1)) (watchAll aesctr p db) (WrongAll aesctr p db) srv n []
        ⟨tape P.rest P.pos P.M B.1, P.pos⟩ ws then 1 else 0)

/-- Independent draws of one lookup as the client takes them. -/
def coinsFrom (fl : ℚ → ℚ) (l : Nat) {n N r : Nat} (z : Fin r → Fresh 4 n N) : List Coins :=
  List.ofFn (fun j => ⟨List.ofFn (z j).1, List.ofFn (z j).2.1, noiseFrom fl l (List.ofFn (z j).2.2)⟩)

/-- What the server sees of a lookup with independent draws. -/
def seesFreshAll (fl : ℚ → ℚ) (aesctr : List Byte → Nat → Byte) (p : Params) (db : Db 32) (t N : Nat) (i : Nat)
    (F : List Byte → Res (List Byte)) (z : Fin (2 * t + 1) → Fresh 4 p.n N) : Res (List Byte) × Res Unit :=
  viewAll aesctr p db F i (coinsFrom fl db.numRows z)

/-- The advantages of the tests against the LWE problem that one lookup gives (C136). -/
noncomputable def gapsAll (fl : ℚ → ℚ) (aesctr : List Byte → Nat → Byte) (p : Params) (db : Db 32) (t N : Nat)
    (c : Choice Nat (List Byte → Res (List Byte))) (D : Res (List Byte) × Res Unit → ℚ) : ℚ :=
  let v := instanceOf fl 4 lwe32 aesctr p id N
  let near := toleranceOf fl 4 p.n lwe32 p.b db id N
  let see := fun i => hintGaps v near (seeAllTest (n := 2 * t + 1) db c.answer (multiplierOf 32 4) (i / db.numColumns) D)
  let hit := fun i => lweGaps v (oneTest (n := 2 * t + 1) db c.answer (168 * db.numRows - 2) (Finset.range db.numColumns)
    (multiplierOf 32 4) (i / db.numColumns))
  see c.left + see c.right + hit c.left + hit c.right

/-- The advantages of the tests against the LWE problem that a wrong bit gives (C135). -/
noncomputable def gapAll (fl : ℚ → ℚ) (aesctr : List Byte → Nat → Byte) (p : Params) (db : Db 32) (t N : Nat)
    (c : Choice Nat (List Byte → Res (List Byte))) : ℚ :=
  lweGaps (instanceOf fl 4 lwe32 aesctr p id N) (mostTest (r := t) db c.answer (168 * db.numRows - 2) {c.left % db.numColumns}
    (multiplierOf 32 4) (c.left / db.numColumns))

end Verif.AmplifyStream.Spec
