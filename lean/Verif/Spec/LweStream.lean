import Verif.Model.LweStream
import Verif.Spec.LweReal
import Verif.Spec.History

/-! # Specification: sessions of lattice lookups by one client object

One client object makes one lookup after the other. All lookups take their multipliers and secrets from the generator it was made
with, and their noise from the generator shared by the process, of which nobody else takes words in the meantime. Nothing is assumed
about what the generators delivered before. -/

namespace Verif.LweStream.Spec
open Res Verif.Rand Verif.Privacy Verif.Matrix Verif.Lwe Verif.Lwe.Spec Verif.Coins.Spec Verif.Reaction Verif.History
  Verif.LweReal.Spec

variable {V C : Type}

/-- How a server that has seen `past` decides after `n` more lookups. Before each of them it proposes two entries and the way it
answers; the client always takes the left or always the right entry. `see i F c` is what the server sees of a lookup of `i`
that it answers by `F`, if the client's draws are `c`; `next` makes the draws. If the draws do not come to an end, the server decides
by `hang`. -/
def decides (next : Prg → List (BitVec 64) → Res (C × Prg × List (BitVec 64)))
    (see : Nat → (List Byte → Res (List Byte)) → C → V) (S : Server Nat (List Byte → Res (List Byte)) V) (hang : List V → ℚ)
    (right : Bool) : Nat → List V → Prg → List (BitVec 64) → ℚ
  | 0, past, _, _ => S.decide past
  | n + 1, past, g, ws =>
    match next g ws with
    | ok (c, g', ws') =>
      decides next see S hang right n (past ++ [see ((S.choose past).asked right) (S.choose past).answer c]) g' ws'
    | _ => hang past

/-- One of the next `n` lookups is `wrong`. -/
def GoesWrong (next : Prg → List (BitVec 64) → Res (C × Prg × List (BitVec 64)))
    (see : Nat → (List Byte → Res (List Byte)) → C → V) (wrong : Nat → (List Byte → Res (List Byte)) → C → Prop)
    (S : Server Nat (List Byte → Res (List Byte)) V) : Nat → List V → Prg → List (BitVec 64) → Prop
  | 0, _, _, _ => False
  | n + 1, past, g, ws => ∃ c g' ws', next g ws = ok (c, g', ws') ∧
    (wrong (S.choose past).left (S.choose past).answer c ∨
      GoesWrong next see wrong S n (past ++ [see (S.choose past).left (S.choose past).answer c]) g' ws')

variable {w : Nat}

/-- What the server sees of one lookup: the message and the way the client ends. -/
def watch (S : Scheme w) (aesctr : List Byte → Nat → Byte) (p : Params) (db : Db w) (i : Nat) (F : List Byte → Res (List Byte))
    (c : Coins) : Res (List Byte) × Res Unit := view S aesctr p db F i c

/-- The client takes a bit that is not stored. -/
def WrongBit (S : Scheme w) (aesctr : List Byte → Nat → Byte) (p : Params) (db : Db w) (i : Nat) (F : List Byte → Res (List Byte))
    (c : Coins) : Prop :=
  ∃ b, retrieve S aesctr p db.numColumns db.digest c i F = ok b ∧
    b ≠ BitVec.ofNat 32 (storedBit db.matrix (i / db.numColumns) (i % db.numColumns))

/-- The average decision over the random bytes of both generators after `n` lookups. -/
noncomputable def decision (P : Past) (fl : ℚ → ℚ) (k : Nat) (S : Scheme w) (aesctr : List Byte → Nat → Byte) (p : Params)
    (db : Db w) (srv : Server Nat (List Byte → Res (List Byte)) (Res (List Byte) × Res Unit))
    (hang : List (Res (List Byte) × Res Unit) → ℚ) (right : Bool) (n : Nat) : ℚ :=
  avg (fun B : (Fin P.M → Byte) × (Fin (8 * P.N) → Byte) =>
    match words (tape P.rest' (8 * P.m) (8 * P.N) B.2) P.m P.N with
    | ok ws => decides (drawNext fl k p.n db.numRows) (watch S aesctr p db) srv hang right n [] ⟨tape P.rest P.pos P.M B.1, P.pos⟩ ws
    | _ => hang [])

open Classical in
/-- The part of the random bytes of both generators for which one of `n` lookups gives a bit that is not stored. -/
noncomputable def wrongPart (P : Past) (fl : ℚ → ℚ) (k : Nat) (S : Scheme w) (aesctr : List Byte → Nat → Byte) (p : Params)
    (db : Db w) (srv : Server Nat (List Byte → Res (List Byte)) (Res (List Byte) × Res Unit)) (n : Nat) : ℚ :=
  avg (fun B : (Fin P.M → Byte) × (Fin (8 * P.N) → Byte) =>
    if ∃ ws, words (tape P.rest' (8 * P.m) (8 * P.N) B.2) P.m P.N = ok ws ∧
      GoesWrong (drawNext fl k p.n db.numRows) (watch S aesctr p db) (WrongBit S aesctr p db) srv n []
        ⟨tape P.rest P.pos P.M B.1, P.pos⟩ ws then 1 else 0)

/-- Independent draws of one lookup: a uniform multiplier, a uniform secret and noise from `N` random words. -/
abbrev Fresh (k n N : Nat) : Type := (Fin k → Byte) × Sample k n N

/-- What the server sees of a lookup with independent draws. -/
def seesFresh (fl : ℚ → ℚ) (k : Nat) (S : Scheme w) (aesctr : List Byte → Nat → Byte) (p : Params) (db : Db w) (N : Nat) (i : Nat)
    (F : List Byte → Res (List Byte)) (x : Fresh k p.n N) : Res (List Byte) × Res Unit :=
  view S aesctr p db F i ⟨List.ofFn x.1, List.ofFn x.2.1, noiseFrom fl db.numRows (List.ofFn x.2.2)⟩

/-- The advantages of the four tests against the LWE problem that one lookup gives (C133). -/
noncomputable def gaps (fl : ℚ → ℚ) (k : Nat) (S : Scheme w) (aesctr : List Byte → Nat → Byte) (p : Params) (db : Db w)
    (nz : Int → Int) (d : Nat) (N : Nat) (c : Choice Nat (List Byte → Res (List Byte)))
    (D : Res (List Byte) × Res Unit → ℚ) : ℚ :=
  let v := fun x : Sample k p.n N => secretVector S aesctr p nz (List.ofFn x.1) (noiseFrom fl db.numRows (List.ofFn x.2))
  let near := toleranceOf fl k p.n S p.b db nz N
  let see := fun i => hintGap v near (seeTest S db c.answer (multiplierOf w k) (i / db.numColumns) D)
  let hit := fun i => lweGap v (hitTest S db c.answer d (Finset.range db.numColumns) (multiplierOf w k) (i / db.numColumns))
  see c.left + see c.right + hit c.left + hit c.right

/-- The advantage of the test against the LWE problem that a wrong bit gives (C132). -/
noncomputable def gap (fl : ℚ → ℚ) (k : Nat) (S : Scheme w) (aesctr : List Byte → Nat → Byte) (p : Params) (db : Db w)
    (nz : Int → Int) (d : Nat) (N : Nat) (c : Choice Nat (List Byte → Res (List Byte))) : ℚ :=
  let v := fun x : Sample k p.n N => secretVector S aesctr p nz (List.ofFn x.1) (noiseFrom fl db.numRows (List.ofFn x.2))
  lweGap v (hitTest S db c.answer d {c.left % db.numColumns} (multiplierOf w k) (c.left / db.numColumns))

end Verif.LweStream.Spec
