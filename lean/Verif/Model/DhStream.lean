import Verif.Model.Dh
import Verif.Model.Rand

/-! # Model of one query of the group scheme after the other by one client object -/

namespace Verif.DhStream
open Res Verif.Rand Verif.Dh

/-- How the library (github.com/cloudflare/circl/group, external) makes a random scalar: `RandomScalar` reads `bytes` bytes from the
reader in one go and turns them into a scalar. -/
structure Sampler where
  bytes : Nat
  scalar : List Byte → Int

/-- The draws of lib/client/dh.go:42-43 in `QueryBytes`: `r` and then `t`, from the generator `g` that lib/client/dh.go:21-36 keeps in
the client, and the generator afterwards (lib/utils/rand.go:60-110). -/
def drawScalars (s : Sampler) (g : Prg) : (Int × Int) × Prg :=
  let r := g.read (List.replicate s.bytes 0)
  let t := r.2.read (List.replicate s.bytes 0)
  ((s.scalar r.1, s.scalar t.1), t.2)

/-- lib/client/dh.go:38-70 `QueryBytes` of a client whose generator is `rnd`: what the query returns and the generator afterwards. The
scalars are drawn before anything else. -/
def queryFrom {G : Type} [AddCommGroup G] [DecidableEq G] (s : Sampler) (g : Grp G) (info : Info) (rnd : Prg) (index : Int) :
    Res (List Byte × State G) × Prg :=
  let d := drawScalars s rnd
  (queryBytes g info d.1.1 d.1.2 index, d.2)

end Verif.DhStream
