import Verif.Model.Predicate

/-! # One client object making predicate queries one after the other

The MAC keys of all queries come from the generator the client was made with; key generation writes into the scratch buffer
of the client's `Fss`. Both are carried from query to query. -/

namespace Verif.CountStream
open Res Verif.Rand Verif.Predicate

/-- The world as the next query finds it: the client object holds the generator `g` and the buffer `buf`, and the system
delivers `r1` and `r2` to key generation (lib/client/fss.go:16-23, lib/client/predicate_apir.go:20-32,
lib/fss/client.go:45-53). -/
def atQuery (W : World) (g : Prg) (buf r1 r2 : List Byte) : World := { W with rnd := g, buf := buf, r1 := r1, r2 := r2 }

/-- What a query leaves in the client object: the generator after the MAC keys, and the scratch buffer
(lib/client/fss.go:47-72, with 1 + `ConcurrentExecutions` = 5, lib/client/predicate_apir.go:21). -/
def afterQuery (W : World) (q : Query.ClientFSS) : Res (Prg × List Byte) := do
  let (_, _, g, buf) ← query W.env W.fuel 5 W.rnd W.buf W.r1 W.r2 q 2
  ok (g, buf)

end Verif.CountStream
