import Verif.Model.CountStream
import Verif.Spec.ReactionAverage
import Verif.Spec.History
import Verif.Spec.Uniform

/-! # Specification: sessions of predicate queries by one client object

One client object makes one query after the other. The MAC keys of all of them come from the generator it was made with; the
seeds of each query come from the system and are independent. Nothing is assumed about what the generator delivered before. -/

namespace Verif.CountStream.Spec
open Res Verif.Rand Verif.Privacy Verif.Predicate Verif.History Verif.CountStream Verif.Uniform

variable {I A V : Type}

/-- What the system delivers for one query: the two seeds and the control byte. -/
abbrev Seeds : Type := (Fin 16 → Byte) × (Fin 16 → Byte) × Byte

/-- The world of a query with these seeds. -/
def seeded (W : World) (g : Prg) (buf : List Byte) (x : Seeds) : World :=
  atQuery W g buf (List.ofFn x.1 ++ [x.2.2]) (List.ofFn x.2.1)

/-- How a server that has seen `past` decides after `n` more queries, on the average over the seeds. Before each query it proposes
two questions and the way it answers; the client always takes the left or always the right question. `ask i` is the query that the
client makes of the question `i`, and `see w i a` is what the server sees of it in the world `w` if it answers by `a`. If the MAC keys
are not drawn, the server decides by `hang`. -/
def decides (W : World) (ask : I → Query.ClientFSS) (see : World → I → A → V) (S : Server I A V) (hang : List V → ℚ)
    (right : Bool) : Nat → List V → Prg → List Byte → ℚ
  | 0, past, _, _ => S.decide past
  | n + 1, past, g, buf => avg fun x : Seeds =>
    match afterQuery (seeded W g buf x) (ask ((S.choose past).asked right)) with
    | ok (g', buf') => decides W ask see S hang right n
        (past ++ [see (seeded W g buf x) ((S.choose past).asked right) (S.choose past).answer]) g' buf'
    | _ => hang past

open Classical in
/-- The part of the seeds for which one of the next `n` queries is `wrong`. -/
noncomputable def goesWrong (W : World) (ask : I → Query.ClientFSS) (see : World → I → A → V) (wrong : World → I → A → Prop)
    (S : Server I A V) : Nat → List V → Prg → List Byte → ℚ
  | 0, _, _, _ => 0
  | n + 1, past, g, buf => avg fun x : Seeds =>
    match afterQuery (seeded W g buf x) (ask (S.choose past).left) with
    | ok (g', buf') => if wrong (seeded W g buf x) (S.choose past).left (S.choose past).answer then 1
        else goesWrong W ask see wrong S n (past ++ [see (seeded W g buf x) (S.choose past).left (S.choose past).answer]) g' buf'
    | _ => 0

/-- The average decision over the random bytes of the generator, `N` blocks from `pos` on. -/
def decision (rest : Nat → Byte) (pos N : Nat) (W : World) (ask : I → Query.ClientFSS) (see : World → I → A → V)
    (S : Server I A V) (hang : List V → ℚ) (right : Bool) (n : Nat) : ℚ :=
  avg fun B : Fin N → Fin 16 → Byte => decides W ask see S hang right n [] ⟨tape rest pos N B, pos⟩ W.buf

/-- The part of the random bytes and seeds for which one of `n` queries is `wrong`. -/
noncomputable def wrongPart (rest : Nat → Byte) (pos N : Nat) (W : World) (ask : I → Query.ClientFSS) (see : World → I → A → V)
    (wrong : World → I → A → Prop) (S : Server I A V) (n : Nat) : ℚ :=
  avg fun B : Fin N → Fin 16 → Byte => goesWrong W ask see wrong S n [] ⟨tape rest pos N B, pos⟩ W.buf

end Verif.CountStream.Spec
