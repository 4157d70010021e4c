import Verif.Spec.CountStream

/-! # Specification: sessions of predicate queries that two honest servers answer

One client object makes one query after the other, as in Spec/CountStream. Both servers answer as they should. The questions are
chosen one after the other by somebody who sees all that was `seen` before. -/

namespace Verif.CountStream.Spec
open Res Verif.Rand Verif.Privacy Verif.Predicate Verif.History Verif.CountStream Verif.Uniform

variable {I V : Type}

open Classical in
/-- The part of the seeds for which not all of the next `n` queries end, each as `right` demands. -/
noncomputable def misses (W : World) (query : I → Query.ClientFSS) (seen : World → I → V) (right : World → I → Prop)
    (ask : List V → I) : Nat → List V → Prg → List Byte → ℚ
  | 0, _, _, _ => 0
  | n + 1, past, g, buf => avg fun x : Seeds =>
    match afterQuery (seeded W g buf x) (query (ask past)) with
    | ok (g', buf') => if right (seeded W g buf x) (ask past)
        then misses W query seen right ask n (past ++ [seen (seeded W g buf x) (ask past)]) g' buf' else 1
    | _ => 1

/-- The part of the random bytes of the generator, `N` blocks from `pos` on, and of the seeds for which not all of `n` queries end, each
as `right` demands. -/
noncomputable def missedPart (rest : Nat → Byte) (pos N : Nat) (W : World) (query : I → Query.ClientFSS) (seen : World → I → V)
    (right : World → I → Prop) (ask : List V → I) (n : Nat) : ℚ :=
  avg fun B : Fin N → Fin 16 → Byte => misses W query seen right ask n [] ⟨tape rest pos N B, pos⟩ W.buf

end Verif.CountStream.Spec
