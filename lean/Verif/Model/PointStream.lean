import Verif.Model.Point
import Verif.Model.Rand

/-! # Model of point queries that take their random bytes from the client's generator -/

namespace Verif.PointStream
open Res Verif.Rand Verif.Database Verif.Point

/-- lib/client/pir_point.go:46-68 `Query` with lines 83-96 of `secretShare`, of a client whose `rnd` is the generator `g`
(lib/utils/rand.go:60-110): what the query returns and the generator afterwards. The buffer of line 93 is new, hence zeroed,
and the only thing that is read; with two servers (line 57) and when the query panics before, nothing is read. -/
def query (dpf : Dpf) (info : Info) (g : Prg) (index numServers : Int) : Res (List (List Byte) × State) × Prg :=
  (Point.query dpf (fun k => ok (g.read (List.replicate k 0)).1) info index numServers,
    if invalidQueryInputsIT index numServers ∨ info.numColumns = 0 ∨ numServers = 2 ∨ numServers < 1 then g
    else (g.read (List.replicate ((numServers.toNat - 1) * (info.numColumns / 8 + 1)) 0)).2)

end Verif.PointStream
