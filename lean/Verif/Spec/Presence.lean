import Verif.Spec.Client
import Verif.Spec.History
import Verif.Spec.Pgp
import Verif.Model.Interactive

/-! # Specification vocabulary: what servers notice of lookups by the interactive and the web client

Servers see the messages sent to them, and whether the program that sent them is still there afterwards: when a process ends, its
connections are closed. -/

namespace Verif.Presence
open Res Verif.Cmd Verif.Client Verif.Client.Spec Verif.Web Verif.Interactive Verif.History

/-- What passes between a client and some servers: address and message. -/
abbrev Mail := List (String × List Byte)

/-- What the members of a coalition do in one lookup: what they say about the database, what they answer once they have compared all
messages that they got, and in which order things arrive, which they may influence. -/
structure Tactic where
  infos : String → Res DbInfo
  replies : Mail → String → Res (List Byte)
  order : Schedule

/-- A client's libraries, the configured point servers, those of them that form a coalition, and the database of the others. -/
structure Scene where
  L : Lib
  servers : List String
  member : String → Bool
  db : Database.Bytes

/-- The servers, if the members have got the messages `v`. The others are those of cmd/grpc/server with the database. -/
def Scene.net (s : Scene) (t : Tactic) (v : Mail) : Net where
  dial _ := ok ()
  info a := if s.member a then t.infos a else ok (transmit (report s.db))
  answer a q := if s.member a then t.replies v a else Point.answer s.L.dpf 0 s.db q

/-- The messages of a lookup to any servers. They do not depend on answers to other messages (C61). -/
def messages (L : Lib) (net : Net) (S : Schedule) (servers : List String) (email : String) : Mail :=
  match (do
    let infos ← gatherInfos net S servers
    let infos ← getDBInfos infos
    let info ← idx infos 0
    let (queries, _) ← lookupQueries L servers.length (pointInfo info) (bytes email)
    sends servers queries) with
  | ok ms => ms
  | _ => []

/-- The random bytes of a lookup. -/
abbrev Scene.Coins (s : Scene) := Fin ((s.servers.length - 1) * (s.db.info.numColumns / 8 + 1)) → Byte

/-- The client's libraries with these random bytes. -/
def Scene.lib (s : Scene) (ω : s.Coins) : Lib := withRandom s.L (List.ofFn ω)

/-- The messages that the members get. -/
def Scene.mail (s : Scene) (email : String) (t : Tactic) (ω : s.Coins) : Mail :=
  (messages (s.lib ω) (s.net t []) t.order s.servers email).filter (fun m => s.member m.1)

/-- The form of the key page, filled in. -/
def asking (email : String) : Request := ⟨ok (), fun field => if field = "email" then email else ""⟩

/-- The web front end still runs after a computation of a handler: `net/http` recovers its panics. -/
def stays {α : Type} (f : Fate α) : Bool :=
  match f with
  | .exits _ => false
  | _ => true

/-- What the members notice of a lookup on the web page: their messages, and whether the front end is still there. -/
def webSees (s : Scene) (email : String) (t : Tactic) (ω : s.Coins) : Mail × Bool :=
  (s.mail email t ω, stays (retrieve (s.lib ω) (s.net t (s.mail email t ω)) t.order s.servers (asking email)))

/-- What the members notice of a lookup by the interactive client: their messages, and whether the program is still there. The
rest of the program's surroundings, `d` and `W`, plays no part. -/
def interactiveSees (d : Desk) (W : Predicate.World) (s : Scene) (email : String) (t : Tactic) (ω : s.Coins) : Mail × Bool :=
  (s.mail email t ω, decide ((Interactive.session { d with L := s.lib ω, point := s.servers }
    [(.download (some email), ⟨s.net t (s.mail email t ω), t.order, W⟩)]).2 = .asking))

/-- A scene in which one of the servers is not in the coalition, with more or fewer than two servers (two use the distributed point
function), and a database that is well-formed and can be described. -/
structure Scene.Sound (s : Scene) (blocks : List (List Byte)) : Prop where
  hash : Pgp.Spec.HashLong s.L.hash
  outsider : ∃ b ∈ s.servers, s.member b = false
  count : s.servers.length ≠ 2
  stores : Point.Spec.Stores s.db blocks
  describable : Describable s.db
  cells : s.db.info.numRows * s.db.info.numColumns % 2 ^ 32 ≠ 0

/-- What a coalition may lay down for a lookup: two e-mails, neither of them empty, and any tactic that delivers everything. -/
def Proper (c : History.Choice String Tactic) : Prop := c.left ≠ "" ∧ c.right ≠ "" ∧ Fair c.answer.order

/-- Members that do as they should. -/
def Scene.honest (s : Scene) (order : Schedule) : Tactic where
  infos _ := ok (transmit (report s.db))
  replies v a :=
    match v.find? (fun m => m.1 = a) with
    | some m => Point.answer s.L.dpf 0 s.db m.2
    | none => err "no message"
  order := order

/-- Members that leave out all rows of their answers from the `x`-th on. -/
def Scene.cut (s : Scene) (order : Schedule) (x : Nat) : Tactic where
  infos _ := ok (transmit (report s.db))
  replies v a := (s.honest order).replies v a >>= fun r => ok (r.take (x * s.db.info.blockSize))
  order := order

end Verif.Presence
