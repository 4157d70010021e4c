import Verif.Spec.Reaction
import Verif.Spec.ReactionLwe

/-! # Specification vocabulary for sessions of many lookups

A server watches one lookup after the other. It has the client look up what it likes, answers as it likes, and remembers
everything it has seen. A client that stops early is covered: the server may ignore the rest. The coins of the lookups are
independent of each other (C47 and C54 say that the generator repeats no output). -/

namespace Verif.History
open Finset Verif.Privacy

/-- What the server lays down for the next lookup: two things to look up, of which it does not know which one the client takes, and
the way it answers. -/
structure Choice (I A : Type) where
  left : I
  right : I
  answer : A

/-- What the client looks up. -/
def Choice.asked {I A : Type} (c : Choice I A) (right : Bool) : I := if right then c.right else c.left

/-- A server: what it lays down and what it decides in the end, depending on everything it has seen. -/
structure Server (I A V : Type) where
  choose : List V → Choice I A
  decide : List V → ℚ

variable {I A V Ω : Type} [Fintype Ω]

/-- The probability that the server says yes after `n` more lookups, if it has seen `past`, and if the client always takes the right
(or always the left) one of the two things. `see i a ω` is what the server sees of a lookup of `i` that it answers by `a`, if the
client's coins are `ω`. -/
def session (see : I → A → Ω → V) (S : Server I A V) (right : Bool) : Nat → List V → ℚ
  | 0, past => S.decide past
  | n + 1, past =>
    avg fun ω => session see S right n (past ++ [see ((S.choose past).asked right) (S.choose past).answer ω])

/-- How well the server tells clients that take the left things from clients that take the right ones, by `n` lookups. -/
def telling (see : I → A → Ω → V) (S : Server I A V) (n : Nat) : ℚ := |session see S false n [] - session see S true n []|

/-- The expected sum of `cost` over `n` lookups of a client that takes the left things. The cost of a lookup depends on the choice and
on the test that sees this lookup and goes on with a client that takes the right things. -/
def total (see : I → A → Ω → V) (S : Server I A V) (cost : Choice I A → (V → ℚ) → ℚ) : Nat → List V → ℚ
  | 0, _ => 0
  | n + 1, past =>
    cost (S.choose past) (fun v => session see S true n (past ++ [v])) +
      avg fun ω => total see S cost n (past ++ [see (S.choose past).left (S.choose past).answer ω])

open Classical in
/-- The probability that one of `n` more lookups goes wrong, in the sense of `wrong`; the client takes the left things. -/
noncomputable def everWrong (see : I → A → Ω → V) (wrong : I → A → Ω → Prop) (S : Server I A V) : Nat → List V → ℚ
  | 0, _ => 0
  | n + 1, past =>
    avg fun ω => if wrong (S.choose past).left (S.choose past).answer ω then 1
      else everWrong see wrong S n (past ++ [see (S.choose past).left (S.choose past).answer ω])

end Verif.History

namespace Verif.Dh.Spec
open Verif.Dh Verif.Privacy Verif.Reaction Verif.History Res Finset

variable {G T Ω : Type} [AddCommGroup G] [DecidableEq G] [Fintype G] [Fintype T] [Fintype Ω]

/-- What one lookup can reveal (C86): the advantages of four tests against the Diffie-Hellman problem and the chance of a guess. -/
noncomputable def leak (g : Grp G) (db : Elliptic) (r : Ω → Int) (t : T → Int) (ε : ℚ)
    (c : Choice Nat (List Byte → Res (List Byte))) (D : Res (List Byte) × Res Unit → ℚ) : ℚ :=
  dhGap g db r (seeTest g db c.answer t (c.left % db.info.numColumns) D) +
  dhGap g db r (seeTest g db c.answer t (c.right % db.info.numColumns) D) +
  dhGap g db r (hitTest g db c.answer t (c.left % db.info.numColumns)) +
  dhGap g db r (hitTest g db c.answer t (c.right % db.info.numColumns)) + 4 * db.info.numRows * ε

/-- The chance of forging one lookup (C87). -/
noncomputable def forge (g : Grp G) (db : Elliptic) (r : Ω → Int) (t : T → Int) (ε : ℚ)
    (c : Choice Nat (List Byte → Res (List Byte))) : ℚ :=
  dhGap g db r (hitTest g db c.answer t (c.left % db.info.numColumns)) + (2 * db.info.numRows + 1) * ε

end Verif.Dh.Spec

namespace Verif.Lwe.Spec
open Verif.Matrix Verif.Lwe Verif.Privacy Verif.Reaction Verif.History Res Finset

variable {T Ω : Type} [Fintype T] [Fintype Ω] {w : Nat}

/-- What one lookup can reveal (C88): the advantages of four tests against the LWE problem, the chance that the noise is too large and
that of a guess. The noise of the scheme is `nz`, its accepted interval goes from `-lo` to `hi`, and `d` is the sum of the two. -/
noncomputable def leak (S : Scheme w) (aesctr : List Byte → Nat → Byte) (p : Params) (db : Db w) (nz : Int → Int) (lo hi : Int)
    (d : Nat) (tB : T → List Byte) (sB : Ω → List Byte) (noise : Ω → List Int) (ε : ℚ)
    (c : Choice Nat (List Byte → Res (List Byte))) (D : Res (List Byte) × Res Unit → ℚ) : ℚ :=
  hintGap (fun ω => secretVector S aesctr p nz (sB ω) (noise ω))
    (fun ω => tolerance S p.b db (fun r => nz ((noise ω).getD r 0)))
    (seeTest S db c.answer (fun τ => wordAt w S.k (tB τ) 0) (c.left / db.numColumns) D) +
  hintGap (fun ω => secretVector S aesctr p nz (sB ω) (noise ω))
    (fun ω => tolerance S p.b db (fun r => nz ((noise ω).getD r 0)))
    (seeTest S db c.answer (fun τ => wordAt w S.k (tB τ) 0) (c.right / db.numColumns) D) +
  lweGap (fun ω => secretVector S aesctr p nz (sB ω) (noise ω))
    (hitTest S db c.answer d (range db.numColumns) (fun τ => wordAt w S.k (tB τ) 0) (c.left / db.numColumns)) +
  lweGap (fun ω => secretVector S aesctr p nz (sB ω) (noise ω))
    (hitTest S db c.answer d (range db.numColumns) (fun τ => wordAt w S.k (tB τ) 0) (c.right / db.numColumns)) +
  2 * avg (fun ω => indicator (Overflow lo hi nz db (range db.numColumns) (noise ω))) +
  2 * (db.numColumns * (2 * (2 * d + 1) * ε))

/-- The chance of forging one lookup (C89). -/
noncomputable def forge (S : Scheme w) (aesctr : List Byte → Nat → Byte) (p : Params) (db : Db w) (nz : Int → Int) (lo hi : Int)
    (d : Nat) (tB : T → List Byte) (sB : Ω → List Byte) (noise : Ω → List Int) (ε : ℚ)
    (c : Choice Nat (List Byte → Res (List Byte))) : ℚ :=
  lweGap (fun ω => secretVector S aesctr p nz (sB ω) (noise ω))
    (hitTest S db c.answer d {c.left % db.numColumns} (fun τ => wordAt w S.k (tB τ) 0) (c.left / db.numColumns)) +
  avg (fun ω => indicator (Overflow lo hi nz db {c.left % db.numColumns} (noise ω))) + 2 * (2 * d + 1) * ε

end Verif.Lwe.Spec
