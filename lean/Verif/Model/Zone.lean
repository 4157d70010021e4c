import Verif.Model.Predicate

/-! # Model of creation times and time zones

The other models keep the binary form of a time abstract. Here it is concrete: `time.Unix`, `time.Date` in UTC and
`Time.MarshalBinary` of the standard library (Go 1.17, as in go.mod; later versions encode offsets that are no whole minutes
in one more byte instead of refusing them), and the creation time of an OpenPGP key, which the library makes with
`time.Unix` from four bytes: a time in the zone of the server's process. -/

namespace Verif.Zone
open Res Verif.Query Verif.Predicate Verif.Field Verif.Fss

/-- A time zone: the seconds east of UTC that its clocks show at an instant, given in seconds since 1970. -/
structure Tz where
  offset : Int → Int
  small : ∀ t, -86400 < offset t ∧ offset t < 86400

/-- The same offset at all times. -/
def fixed (o : Int) (h : -86400 < o ∧ o < 86400) : Tz := ⟨fun _ => o, fun _ => h⟩

/-- The day of 1 January 1970. -/
def epoch : Int := startOfYear 1970

/-- `Time.MarshalBinary` of a time without nanoseconds: version, seconds since year 1, nanoseconds, offset in minutes. -/
def marshal (unix minutes : Int) : List Byte :=
  [1] ++ beBytes 8 (BitVec.ofInt 64 (unix + 62135596800)).toNat ++ beBytes 4 0 ++ beBytes 2 (BitVec.ofInt 16 minutes).toNat

/-- `time.Date(year, month, day, 0, 0, 0, 0, time.UTC)` for a given day: its location is `UTC`, which is marshalled as -1. -/
def midnight (d : Int) : Time := ⟨d, ok (marshal ((d - epoch) * 86400) (-1))⟩

/-- `time.Unix(unix, 0)`: its location is `Local`, also in a process whose zone is UTC. -/
def local_ (z : Tz) (unix : Int) : Time where
  day := epoch + (unix + z.offset unix) / 86400
  bin :=
    if z.offset unix % 60 ≠ 0 then err "Time.MarshalBinary: zone offset has fractional minute"
    else if z.offset unix / 60 = -1 then err "Time.MarshalBinary: unexpected zone offset"
    else ok (marshal unix (z.offset unix / 60))

/-- What a key block says: e-mail of the primary identity, creation time and algorithm of the primary key. -/
structure RawKey where
  email : List Byte
  created : U32
  algo : Byte
deriving DecidableEq

/-- lib/database/pgp.go:200-226 `GetKeyInfoFromPacket` of a well-formed block; `openpgp` makes the creation time with
`time.Unix`. -/
def keyInfo (z : Tz) (k : RawKey) : KeyInfo := ⟨k.email, local_ z k.created.toNat, k.algo⟩

/-- lib/database/pgp.go:17-50 `GenerateRealKeyDB`, from the sorted keys on. -/
def load (z : Tz) (ks : List RawKey) : KeyDB := ⟨ks.length, ks.map (keyInfo z)⟩

/-- `World.run` (lib/client/fss.go, lib/server/fss.go) with a database for each server, connections in order. -/
def run (W : World) (ex : Nat) (db0 db1 : KeyDB) (q : ClientFSS) : Res U32 := do
  let (ms, st, _, _) ← query W.env W.fuel ex W.rnd W.buf W.r1 W.r2 q 2
  let m0 ← idx ms 0
  let m1 ← idx ms 1
  let a0 ← W.serve 0 ex db0 m0
  let a1 ← W.serve 1 ex db1 m1
  reconstructBytes ex st [a0, a1]

end Verif.Zone
