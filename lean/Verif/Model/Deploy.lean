import Verif.Model.Client

/-! # Model of the server program and of a deployment

cmd/grpc/server/main.go from the options to a running server, with the key directory, the configuration and the
certificates; and the network that clients see when several such servers run. Logging, profiling, the HTTP server for
experiments and the notification of systemd are left out; the handling of concurrent requests is Model/Rpc.lean. -/

namespace Verif.Deploy
open Res Verif.Cmd Verif.Client Verif.Pgp Verif.Query

/-- cmd/grpc/server/main.go:40-44: the options that matter. -/
structure ServerFlags where
  id : Int
  files : Int
  scheme : String
deriving DecidableEq, Repr

/-- The machine that a server runs on: the libraries (BLAKE3, the checksum of the tree, BLAKE2b for the table and for the
queries, OpenPGP parser, gob decoder), the choices of the Go run-time (`sort.Slice`, map iteration), the key directory (each
file is the result of opening and decoding it), the outcome of `net.Listen`, and the environments, clock and scratch buffer
with which a predicate query is answered. -/
structure Machine where
  H : List Byte → List Byte
  ck : List Byte → Merkle.U64
  hash : Str → List Byte
  queryHash : List Byte → List Byte
  dpf : Point.Dpf
  sort : List Key → List Key
  order : Orders
  readRing : List Byte → Res (List Entity)
  timeOf : Int → Time
  algoOf : Entity → Byte
  ungob : List Byte → Res Predicate.Msg
  dir : List (List Char × Res (List Key))
  bind : String → Res Unit
  env : Nat → Fss.Env
  now : Nat → Int
  buf : List Byte

/-- `ioutil.ReadDir` (lib/pgp/pgp.go:141): the files of a directory in the order of their names. -/
def readDir {α : Type _} (dir : List (List Char × α)) : List (List Char × α) :=
  dir.mergeSort (fun a b => decide (a.1 ≤ b.1))

/-- cmd/grpc/server/main.go:298-341, the common part of `loadPgpDB`, `loadPgpBytes` and `loadPgpMerkle`: the keys of the first
`n` files. -/
def loadKeys (M : Machine) (n : Int) : Res (List Key) := do
  let files ← getSksFiles (readDir M.dir) n
  loadKeysFromDisk (files.map (·.2))

/-- lib/database/pgp.go:200-225 `GetKeyInfoFromPacket`; the bit length is left out. -/
def getKeyInfoFromPacket (readRing : List Byte → Res (List Entity)) (timeOf : Int → Time) (algoOf : Entity → Byte)
    (pkt : List Byte) : Res Predicate.KeyInfo := do
  let el ← readRing pkt
  match el with
  | [e] => ok ⟨e.primary, timeOf e.created, algoOf e⟩
  | _ => err "more than one openpgp entity in a key block"

/-- lib/server/point.go:45-47 `DBInfo` and cmd/grpc/server/main.go:239-254 `DatabaseInfo`, before the numbers are cut to 32
bits (`Cmd.transmit`). -/
def pointDbInfo (db : Database.Bytes) : DbInfo :=
  ⟨db.info.numRows, db.info.numColumns, db.info.blockSize, db.info.pirType, db.info.root, db.info.proofLen⟩

/-- lib/database/pgp.go:29-32 and lib/server/fss.go:23-25: what a predicate server says about `n` keys. -/
def predicateDbInfo (n : Nat) : DbInfo := ⟨0, n, 0, "", [0], 0⟩

/-- lib/server/fss.go:27-40 `answerBytes` with lib/server/predicate_pir.go:39-44 (`ex` = 1) and predicate_apir.go:39-44
(`ex` = 5). -/
def predicateAnswer (M : Machine) (sn : Byte) (ex : Nat) (db : Predicate.KeyDB) (q : List Byte) : Res (List Byte) := do
  let m ← M.ungob q
  let (a, _) ← Predicate.answer M.queryHash M.env M.now sn db ex M.buf m
  Utils.uint32SliceToByteSlice a

/-- A running server: its address, what it says about its database, and what it answers. -/
structure Running where
  addr : String
  info : DbInfo
  answer : List Byte → Res (List Byte)

/-- cmd/grpc/server/main.go:94-118 and 138-161: load the database and select the server. Every error ends the program
(`log.Fatal`). The server number is `byte(*sid)`. -/
def loadServer (M : Machine) (f : ServerFlags) : Res (DbInfo × (List Byte → Res (List Byte))) :=
  if f.scheme = "pointPIR" then do
    let keys ← orFatal (loadKeys M f.files)
    let db ← orFatal (generateRealKeyBytes M.hash M.sort M.order keys true)
    ok (pointDbInfo db, Point.answer M.dpf 0 db)
  else if f.scheme = "pointVPIR" then do
    let keys ← orFatal (loadKeys M f.files)
    let db ← orFatal (generateRealKeyMerkle M.H M.ck M.hash M.sort M.order keys true)
    ok (pointDbInfo db, Point.answer M.dpf 0 db)
  else if f.scheme = "complexPIR" ∨ f.scheme = "complexVPIR" then do
    let keys ← orFatal (loadKeys M f.files)
    let infos ← generateRealKeyDB (getKeyInfoFromPacket M.readRing M.timeOf M.algoOf) M.sort keys
    let ex := if f.scheme = "complexPIR" then 1 else 1 + Field.concurrentExecutions
    ok (predicateDbInfo keys.length, predicateAnswer M (BitVec.ofInt 8 f.id) ex ⟨keys.length, infos⟩)
  else crash "unknown scheme"

/-- lib/utils/tls.go:161-175: number of certificates. -/
def numCertificates : Nat := 5

/-- Indexing with a Go `int`. -/
def idxInt {α : Type _} (l : List α) (i : Int) : Res α :=
  if i < 0 then crash "index out of range" else idx l i.toNat

/-- cmd/grpc/server/main.go:82-129, in `main`: configuration, database, certificate, listener. `config` lists the entries of the
configuration in the order of the map iteration. -/
def serverMain (M : Machine) (config : List (List Char × Server)) (f : ServerFlags) : Res Running := do
  let addresses ← orFatal (loadConfig config)
  let addr ← idxInt addresses f.id
  let s ← loadServer M f
  let _ ← idxInt (List.range numCertificates) f.id
  let _ ← orFatal (M.bind addr)
  ok ⟨addr, s.1, s.2⟩

/-- The network when these servers run: dialling succeeds where one of them listens (cmd/grpc/client/main.go:435-446 blocks
until the connection is made), and the RPCs are those of cmd/grpc/server/main.go:239-276. -/
def network (servers : List Running) : Net where
  dial a := if a ∈ servers.map (·.addr) then ok () else err "did not connect"
  info a := match servers.find? (fun s => s.addr = a) with
    | some s => ok (transmit s.info)
    | none => err "unavailable"
  answer a q := match servers.find? (fun s => s.addr = a) with
    | some s => s.answer q
    | none => err "unavailable"

end Verif.Deploy
