import Verif.Model.PointStream
import Verif.Spec.Coins
import Verif.Spec.History

/-! # Specification: sessions of point lookups with one generator

One client object makes one lookup after the other; all of them take their random bytes from the generator it was made with.
The key stream has `M` random bytes from the current position on; nothing is assumed about the bytes used before or after, and
the servers may know them. -/

namespace Verif.PointStream.Spec
open Res Verif.Rand Verif.Database Verif.Point Verif.Privacy Verif.History

/-- What all servers but number `m` of `n` receive for a lookup of `index`, and the generator afterwards. -/
def sees (dpf : Dpf) (info : Info) (n m : Nat) (index : Nat) (g : Prg) : Res (List (List Byte)) × Prg :=
  let r := query dpf info g index n
  (match r.1 with
    | ok (qs, _) => ok (qs.eraseIdx m)
    | err e => err e
    | crash e => crash e, r.2)

/-- What the servers decide after `k` more lookups if they have seen `past` and the generator is `g`: before each lookup
they propose two indices, of which the client always takes the left or always the right one. -/
def outcome {V : Type} (see : Nat → Prg → V × Prg) (S : Server Nat Unit V) (right : Bool) : Nat → List V → Prg → ℚ
  | 0, past, _ => S.decide past
  | k + 1, past, g => outcome see S right k (past ++ [(see ((S.choose past).asked right) g).1])
      (see ((S.choose past).asked right) g).2

/-- The number of key-stream bytes used up by a read of `k` bytes. -/
def used (k : Nat) : Nat := if k < 16 then 16 else k

/-- The average decision over the random bytes of the key stream. -/
def decision (dpf : Dpf) (info : Info) (n m : Nat) (rest : Nat → Byte) (pos M : Nat)
    (S : Server Nat Unit (Res (List (List Byte)))) (right : Bool) (lookups : Nat) : ℚ :=
  avg (fun B : Fin M → Byte => outcome (sees dpf info n m) S right lookups [] ⟨Coins.Spec.tape rest pos M B, pos⟩)

end Verif.PointStream.Spec
