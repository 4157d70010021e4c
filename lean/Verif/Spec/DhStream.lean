import Verif.Model.DhStream
import Verif.Spec.Coins
import Verif.Spec.History

/-! # Specification: sessions of lookups of the group scheme with one generator

One client object makes one lookup after the other; all of them take their scalars from the generator it was made with. The key
stream has `M` random bytes from the current position on; nothing is assumed about the bytes used before or after. -/

namespace Verif.DhStream.Spec
open Res Verif.Rand Verif.Dh Verif.Dh.Spec Verif.Privacy Verif.Reaction Verif.History

variable {V : Type}

/-- What a server that has seen `past` decides after `n` more lookups. Before each lookup it proposes two entries and the way it
answers; the client always takes the left or always the right entry. `see` says what it sees of a lookup and how the lookup leaves
the generator. -/
def decides (see : Nat → (List Byte → Res (List Byte)) → Prg → V × Prg) (S : Server Nat (List Byte → Res (List Byte)) V)
    (right : Bool) : Nat → List V → Prg → ℚ
  | 0, past, _ => S.decide past
  | n + 1, past, g =>
    let v := see ((S.choose past).asked right) (S.choose past).answer g
    decides see S right n (past ++ [v.1]) v.2

/-- One of the next `n` lookups goes wrong; the client takes the left entries. -/
def GoesWrong (see : Nat → (List Byte → Res (List Byte)) → Prg → V × Prg)
    (wrong : Nat → (List Byte → Res (List Byte)) → Prg → Prop) (S : Server Nat (List Byte → Res (List Byte)) V) :
    Nat → List V → Prg → Prop
  | 0, _, _ => False
  | n + 1, past, g =>
    let v := see (S.choose past).left (S.choose past).answer g
    wrong (S.choose past).left (S.choose past).answer g ∨ GoesWrong see wrong S n (past ++ [v.1]) v.2

variable {G : Type} [AddCommGroup G] [DecidableEq G]

/-- What the server sees of a lookup of entry `i` that it answers by `F`: the message and the way the client ends. -/
def watch (s : Sampler) (g : Grp G) (info : Info) (i : Nat) (F : List Byte → Res (List Byte)) (rnd : Prg) :
    (Res (List Byte) × Res Unit) × Prg :=
  let d := queryFrom s g info rnd i
  (match d.1 with
    | ok (q, st) => (ok q, ending (F q >>= reconstructBytes g info st))
    | err m => (err m, err m)
    | crash m => (crash m, crash m), d.2)

/-- The client takes a bit that is not stored. -/
def WrongBit (s : Sampler) (g : Grp G) (db : Elliptic) (i : Nat) (F : List Byte → Res (List Byte)) (rnd : Prg) : Prop :=
  ∃ q st a b, (queryFrom s g db.info rnd i).1 = ok (q, st) ∧ F q = ok a ∧ reconstructBytes g db.info st a = ok b ∧
    b ≠ if db.entries.getD i 0 = 1 then 1 else 0

/-- The average decision over the random bytes of the generator after `n` lookups. -/
def decision (s : Sampler) (g : Grp G) (info : Info) (rest : Nat → Byte) (pos M : Nat)
    (S : Server Nat (List Byte → Res (List Byte)) (Res (List Byte) × Res Unit)) (right : Bool) (n : Nat) : ℚ :=
  avg (fun B : Fin M → Byte => decides (watch s g info) S right n [] ⟨Coins.Spec.tape rest pos M B, pos⟩)

open Classical in
/-- The part of the random bytes of the generator for which one of `n` lookups gives a bit that is not stored. -/
noncomputable def wrongPart (s : Sampler) (g : Grp G) (db : Elliptic) (rest : Nat → Byte) (pos M : Nat)
    (S : Server Nat (List Byte → Res (List Byte)) (Res (List Byte) × Res Unit)) (n : Nat) : ℚ :=
  avg (fun B : Fin M → Byte =>
    if GoesWrong (watch s g db.info) (WrongBit s g db) S n [] ⟨Coins.Spec.tape rest pos M B, pos⟩ then 1 else 0)

/-- A lookup of entry `i` from an honest server does not give the stored bit. -/
def Missed (s : Sampler) (g : Grp G) (db : Elliptic) (i : Nat) (rnd : Prg) : Prop :=
  ¬ ∃ q st a, (queryFrom s g db.info rnd i).1 = ok (q, st) ∧ answerBytes g db q = ok a ∧
    reconstructBytes g db.info st a = ok (if db.entries.getD i 0 = 1 then 1 else 0)

open Classical in
/-- The part of the random bytes of the generator for which an honest server does not deliver one of `n` entries. Somebody who sees
all messages chooses the entries. -/
noncomputable def missedPart (s : Sampler) (g : Grp G) (db : Elliptic) (rest : Nat → Byte) (pos M : Nat)
    (S : Server Nat (List Byte → Res (List Byte)) (Res (List Byte) × Res Unit)) (n : Nat) : ℚ :=
  avg (fun B : Fin M → Byte =>
    if GoesWrong (watch s g db.info) (fun i _ rnd => Missed s g db i rnd) S n [] ⟨Coins.Spec.tape rest pos M B, pos⟩ then 1 else 0)

/-- The bytes of one scalar. -/
abbrev Bytes (s : Sampler) : Type := Fin s.bytes → Byte

/-- The scalar made of uniform bytes. -/
def uniform (s : Sampler) (x : Bytes s) : Int := s.scalar (List.ofFn x)

/-- What the server sees of a lookup with independent uniform bytes. -/
def seesFresh (s : Sampler) (g : Grp G) (info : Info) (i : Nat) (F : List Byte → Res (List Byte)) (x : Bytes s × Bytes s) :
    Res (List Byte) × Res Unit := view g info F i (uniform s x.2) (uniform s x.1)

/-- No element is the random multiple of an element other than the neutral one with probability above `ε`. -/
def SpreadAll (s : Sampler) (G : Type) [AddCommGroup G] (ε : ℚ) : Prop :=
  ∀ x : G, x ≠ 0 → ∀ y, avg (fun τ : Bytes s => indicator (uniform s τ • x = y)) ≤ ε

end Verif.DhStream.Spec
