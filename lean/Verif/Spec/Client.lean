import Verif.Model.Client
import Verif.Spec.Numeral
import Verif.Spec.Point
import Verif.Spec.Predicate
import Verif.Spec.Merkle
import Verif.Spec.MerklePir
import Mathlib.SetTheory.Cardinal.Finite

/-! # Specification vocabulary for the client programs -/

namespace Verif.Client.Spec
open Res Verif.Cmd Verif.Client

/-- The Go run-time and the network deliver everything once, in any order. -/
structure Fair (S : Schedule) : Prop where
  infos : ∀ l, (S.infos l).Perm l
  conns : ∀ l, (S.conns l).Perm l
  answers : ∀ l, (S.answers l).Perm l

/-- What a server has to say about a database. -/
def report (db : Database.Bytes) : DbInfo :=
  ⟨db.info.numRows, db.info.numColumns, db.info.blockSize, db.info.pirType, db.info.root, db.info.proofLen⟩

/-- The numbers describing the database fit in the 32-bit fields of the message. -/
structure Describable (db : Database.Bytes) : Prop where
  rows : db.info.numRows < 2 ^ 32
  columns : db.info.numColumns < 2 ^ 32
  block : db.info.blockSize < 2 ^ 32
  proof : db.info.proofLen < 2 ^ 32

/-- Every address is that of an honest point server with this database; `mode` as in `Point.answer`. -/
structure PointServers (net : Net) (dpf : Point.Dpf) (mode : Nat) (db : Database.Bytes) (servers : List String) :
    Prop where
  dial : ∀ a ∈ servers, net.dial a = ok ()
  info : ∀ a ∈ servers, net.info a = ok (transmit (report db))
  answer : ∀ a ∈ servers, ∀ q, net.answer a q = Point.answer dpf mode db q

/-- The two addresses are those of honest predicate servers number 0 and 1 with this database, which say the same about
it. -/
structure PredicateServers (net : Net) (W : Predicate.World) (gob : Predicate.Msg → List Byte) (ex : Nat)
    (db : Predicate.KeyDB) (info : DbInfo) (a0 a1 : String) : Prop where
  dial0 : net.dial a0 = ok ()
  dial1 : net.dial a1 = ok ()
  info0 : net.info a0 = ok info
  info1 : net.info a1 = ok info
  answer0 : ∀ m, net.answer a0 (gob m) = W.serve 0 ex db m
  answer1 : ∀ m, net.answer a1 (gob m) = W.serve 1 ex db m

/-- The three programs show this armoured key for the identifier: the command-line client (for which the addresses must
differ) with the identifier given as an option or typed in, the interactive client and the web page. -/
structure ShowKey (L : Lib) (W : Predicate.World) (gob : Predicate.Msg → List Byte) (mk : Int → Query.Time) (net : Net)
    (S : Schedule) (servers : List String) (id : String) (armored : List Byte) : Prop where
  commandLine : servers.Nodup → ∀ (f : Flags) (typed : String), f.scheme = "pointPIR" ∨ f.scheme = "pointVPIR" →
    (f.id = id ∨ f.id = "" ∧ typed = id) → main L W gob mk net S servers f typed = ok (.key armored)
  interactive : downloadKey L net S servers id = ok (.result armored)
  web : ∀ req : Request, req.parse = ok () → req.value "email" = id → handleRetrieve L net S servers req = ok (.body armored)

/-- The three programs say that there is no key for the identifier: the command-line client ends with a message, the
others print it. -/
structure SayNoKey (L : Lib) (W : Predicate.World) (gob : Predicate.Msg → List Byte) (mk : Int → Query.Time) (net : Net)
    (S : Schedule) (servers : List String) (id : String) : Prop where
  commandLine : servers.Nodup → ∀ (f : Flags) (typed : String), f.scheme = "pointPIR" ∨ f.scheme = "pointVPIR" →
    (f.id = id ∨ f.id = "" ∧ typed = id) →
    main L W gob mk net S servers f typed = crash "no key with the given email id is found"
  interactive : downloadKey L net S servers id = ok .noKey
  web : ∀ req : Request, req.parse = ok () → req.value "email" = id →
    handleRetrieve L net S servers req = ok (.body (bytes "key not found in block"))

/-- The three programs crash on the identifier. -/
structure Crash (L : Lib) (W : Predicate.World) (gob : Predicate.Msg → List Byte) (mk : Int → Query.Time) (net : Net)
    (S : Schedule) (servers : List String) (id : String) : Prop where
  commandLine : servers.Nodup → ∀ (f : Flags) (typed : String), f.scheme = "pointPIR" ∨ f.scheme = "pointVPIR" →
    (f.id = id ∨ f.id = "" ∧ typed = id) → (main L W gob mk net S servers f typed).isCrash
  interactive : (downloadKey L net S servers id).isCrash
  web : ∀ req : Request, req.parse = ok () → req.value "email" = id → (handleRetrieve L net S servers req).isCrash

/-- The database described as one without authentication. -/
def unauthenticated (db : Database.Bytes) : DbInfo := { report db with pirType := "classical" }

/-- All servers but `m` are honest point servers. Server `m` says `said` about the database, and adds a fixed mask to what
it should answer. -/
structure OneLiar (net : Net) (dpf : Point.Dpf) (mode : Nat) (db : Database.Bytes) (servers : List String) (m : String)
    (said : DbInfo) (mask : List Byte) : Prop where
  dial : ∀ a ∈ servers, net.dial a = ok ()
  info : ∀ a ∈ servers, a ≠ m → net.info a = ok (transmit (report db))
  answer : ∀ a ∈ servers, a ≠ m → ∀ q, net.answer a q = Point.answer dpf mode db q
  said : net.info m = ok said
  masked : ∀ q, net.answer m q = Point.answer dpf mode db q >>= fun a => ok (a.zipWith (· ^^^ ·) mask)

/-- The first database info that the programs look at, that is the first to arrive, has type "merkle" and this root. -/
def FirstInfoHonest (net : Net) (S : Schedule) (servers : List String) (r : List Byte) : Prop :=
  ∀ infos, servers.mapM net.info = ok infos → ∀ i, (S.infos infos).head? = some i → i.pirType = "merkle" ∧ i.root = r

/-- In a lookup of `id` under the info `i`, the answers of the servers `peers` make the client take `d` for the record and
`proof` for its proof. -/
def Received (L : Lib) (net : Net) (S : Schedule) (peers : List String) (i : DbInfo) (id : Pgp.Str) (d : List Byte)
    (proof : Merkle.Proof) : Prop :=
  ∃ n queries st answers, lookupQueries L n (pointInfo i) id = ok (queries, st) ∧
    runQueriesActor net S peers queries = ok answers ∧ MerklePir.Spec.Presented answers (pointInfo i) st d proof

/-- No string but those of the tree has the same digest as one of them, and no string has the padding digest. -/
structure Unforgeable (H : List Byte → List Byte) (data : List (List Byte)) : Prop where
  inj : ∀ a b, Merkle.Spec.TreeInput H 32 data b → H a = H b → a = b
  zero : ∀ a, H a ≠ List.replicate 32 0

/-- In this run no 31-bit value derived from a seed that the client or a server reaches with the query equals the
modulus. -/
def Undisturbed (W : Predicate.World) (ex : Nat) (db : Predicate.KeyDB) (query : Res Query.ClientFSS) : Prop :=
  ∀ q, query = ok q → Predicate.Spec.NoHits W ex db q

/-- The parties of a predicate query are set up, and the database is intact. -/
structure StatsReady (W : Predicate.World) (ex : Nat) (db : Predicate.KeyDB) : Prop where
  hash : ∀ e, (W.hash e).length = 32
  ready : Predicate.Spec.Ready W ex
  loaded : Predicate.Spec.Loaded db
  small : db.keys.length < Field.Spec.p

/-- The text is short, or the text and all addresses are ASCII. -/
def Plain (db : Predicate.KeyDB) (text : List Byte) : Prop :=
  text.length ≤ 32 ∨ Predicate.Spec.Ascii text ∧ ∀ ki ∈ db.keys, Predicate.Spec.Ascii ki.email

/-- `OptionsAsk hash mk db f P`: the options of the command line ask for the number of keys satisfying `P`. -/
inductive OptionsAsk (hash : List Byte → List Byte) (mk : Int → Query.Time) (db : Predicate.KeyDB) :
    Flags → (Predicate.KeyInfo → Prop) → Prop
  /-- e-mail address: its first bytes, its last bytes, or the whole by its digest -/
  | email (f : Flags) (ht : f.target = "email") (h1 : f.and = false) (h2 : f.avg = false)
      (hs : 0 ≤ f.fromStart ∧ f.fromStart ≤ (bytes f.id).length) (he : 0 ≤ f.fromEnd ∧ f.fromEnd ≤ (bytes f.id).length)
      (hl : f.fromStart ≤ 32) (hl' : f.fromEnd ≤ 32) :
      OptionsAsk hash mk db f (fun ki =>
        if f.fromStart ≠ 0 then (bytes f.id).take f.fromStart.toNat <+: ki.email
        else if f.fromEnd ≠ 0 then (bytes f.id).drop ((bytes f.id).length - f.fromEnd.toNat) <:+ ki.email
        else (hash (bytes f.id)).take 16 = (hash ki.email).take 16)
  /-- algorithm by name -/
  | algo (f : Flags) (n : Nat) (ht : f.target = "algo") (h1 : f.and = false) (h2 : f.avg = false)
      (hn : Predicate.Spec.algoNumber f.id = some n) : OptionsAsk hash mk db f (fun ki => ki.algo.toNat = n)
  /-- the instant derived from the year (see C27) -/
  | creation (f : Flags) (y : Int) (b : List Byte) (ht : f.target = "creation") (h1 : f.and = false) (h2 : f.avg = false)
      (hy : Cmd.Spec.Numeral f.id y) (hb : (mk (Query.dateDay y 0 0)).bin = ok b) (hl : b.length ≤ 32)
      (hdb : ∀ ki ∈ db.keys, ∃ b', ki.creation.bin = ok b' ∧ b'.length = b.length) :
      OptionsAsk hash mk db f (fun ki => ki.creation.bin = ok b)
  /-- keys of 2018 whose address ends with the text -/
  | and (f : Flags) (h1 : f.and = true) (h2 : f.avg = false) (hid : bytes f.id ≠ []) (hl : (bytes f.id).length ≤ 28)
      (hmk : ∀ d, (mk d).day = d) (hdb : ∀ ki ∈ db.keys, 0 ≤ ki.creation.year ∧ ki.creation.year < 2 ^ 32) :
      OptionsAsk hash mk db f (fun ki => ki.creation.year = 2018 ∧ bytes f.id <:+ ki.email)

/-- The keys that the line printed by the interactive client speaks of. -/
def Said (c : Choice) (ki : Predicate.KeyInfo) : Prop :=
  match c with
  | .countEmail b text => Predicate.Spec.AtEnd b (bytes text) ki.email
  | .countAlgo name => Predicate.Spec.algoNumber name = some ki.algo.toNat
  | .countCreation year => ∃ y, Cmd.Spec.Numeral year y ∧ ki.creation.year < y
  | .avgEmail b text => Predicate.Spec.AtEnd b (bytes text) ki.email

/-- The client with a fixed outcome of its random source. -/
def withRandom (L : Lib) (r : List Byte) : Lib := { L with read := fun _ => ok r }

/-- The messages that leave the command-line client during a lookup, with their destinations. -/
def commandLineTraffic (L : Lib) (net : Net) (S : Schedule) (addresses : List String) (info : Database.Info) (id : Pgp.Str) :
    Res (List (String × List Byte)) := do
  let conns ← connect net.dial addresses
  let (queries, _) ← lookupQueries L conns.length info id
  sends (S.conns conns) queries

/-- The messages that leave the interactive and the web client during a lookup. -/
def actorTraffic (L : Lib) (net : Net) (addresses : List String) (info : Database.Info) (id : Pgp.Str) :
    Res (List (String × List Byte)) := do
  let servers ← connectActor net.dial addresses
  let (queries, _) ← lookupQueries L servers.length info id
  sends servers queries

/-- What the members of a coalition see of the messages. -/
def Seen (traffic : Res (List (String × List Byte))) (coalition : String → Bool) (v : List (String × List Byte)) : Prop :=
  ∃ ms, traffic = ok ms ∧ ms.filter (fun m => coalition m.1) = v

/-- Two identifiers look alike to a coalition: every view arises from the same number of strings of `len` random
bytes. -/
def Alike (traffic : List Byte → Pgp.Str → Res (List (String × List Byte))) (len : Nat) (coalition : String → Bool)
    (id id' : Pgp.Str) : Prop :=
  ∀ v, Nat.card {r : List Byte // r.length = len ∧ Seen (traffic r id) coalition v} =
    Nat.card {r : List Byte // r.length = len ∧ Seen (traffic r id') coalition v}

end Verif.Client.Spec
