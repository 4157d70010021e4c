import Verif.Spec.LweStream

/-! # Specification: sessions of lattice lookups that an honest server answers

One client object makes one lookup after the other, from the generators of Spec/LweStream. The server answers as it should. The
entries are chosen one after the other by somebody who sees all messages. -/

namespace Verif.LweStream.Spec
open Res Verif.Rand Verif.Privacy Verif.Matrix Verif.Lwe Verif.Lwe.Spec Verif.Coins.Spec Verif.Reaction Verif.History
  Verif.LweReal.Spec

variable {V C : Type}

/-- The next `n` lookups all end, and each is `right`. `next` makes the draws, `ask` chooses the entry from what was `seen` before. -/
def Delivers (next : Prg → List (BitVec 64) → Res (C × Prg × List (BitVec 64))) (seen : Nat → C → V) (right : Nat → C → Prop)
    (ask : List V → Nat) : Nat → List V → Prg → List (BitVec 64) → Prop
  | 0, _, _, _ => True
  | n + 1, past, g, ws => ∃ c g' ws', next g ws = ok (c, g', ws') ∧ right (ask past) c ∧
    Delivers next seen right ask n (past ++ [seen (ask past) c]) g' ws'

variable {w : Nat}

/-- A lookup from an honest server with the draws `c` gives the stored bit. -/
def RightBit (S : Scheme w) (aesctr : List Byte → Nat → Byte) (p : Params) (db : Db w) (i : Nat) (c : Coins) : Prop :=
  retrieve S aesctr p db.numColumns db.digest c i (answerBytes S db) =
    ok (BitVec.ofNat 32 (storedBit db.matrix (i / db.numColumns) (i % db.numColumns)))

open Classical in
/-- The part of the random bytes of both generators for which not all of `n` lookups from an honest server end with the stored bit. -/
noncomputable def missedPart (P : Past) (fl : ℚ → ℚ) (k : Nat) (S : Scheme w) (aesctr : List Byte → Nat → Byte) (p : Params)
    (db : Db w) (ask : List (Res (List Byte) × Res Unit) → Nat) (n : Nat) : ℚ :=
  avg (fun B : (Fin P.M → Byte) × (Fin (8 * P.N) → Byte) =>
    if ∃ ws, words (tape P.rest' (8 * P.m) (8 * P.N) B.2) P.m P.N = ok ws ∧
      Delivers (drawNext fl k p.n db.numRows) (fun i => watch S aesctr p db i (answerBytes S db)) (RightBit S aesctr p db) ask n []
        ⟨tape P.rest P.pos P.M B.1, P.pos⟩ ws then 0 else 1)

end Verif.LweStream.Spec
