import Verif.Model.Cmd
import Verif.Model.Predicate

/-! # Model of the client programs

cmd/grpc/client/main.go (command line), cmd/grpc/client/manager/mod.go with cmd/grpc/client/interactive/mod.go and
cmd/grpc/client/web/mod.go. The servers, as seen through gRPC, and the choices of the Go run-time (order of map
iteration, order in which goroutines finish) are parameters. Logging, timing output and profiling are left out. -/

namespace Verif.Client
open Res Verif.Cmd Verif.Pgp Verif.Query

/-- `log.Fatal` on an error. -/
def orFatal {α : Type _} (r : Res α) : Res α :=
  match r with
  | err m => crash m
  | r => r

/-- The servers as the client sees them, by address: the outcome of dialling, of the RPC `DatabaseInfo` (after the
conversion of cmd/grpc/client/main.go:383-389) and of the RPC `Query`. -/
structure Net where
  dial : String → Res Unit
  info : String → Res DbInfo
  answer : String → List Byte → Res (List Byte)

/-- Order of arrival of the database infos, order in which the map of connections is enumerated, and order of arrival
of the answers. -/
structure Schedule where
  infos : List DbInfo → List DbInfo
  conns : List String → List String
  answers : List (List Byte) → List (List Byte)

/-! ### Connections and dispatch -/

/-- cmd/grpc/client/main.go:120-139 `connectToServers`: the keys of the map of connections; a repeated address replaces
the earlier connection. -/
def connect (dial : String → Res Unit) (addresses : List String) : Res (List String) :=
  addresses.foldlM (fun conns s => do
    let _ ← dial s
    ok (if s ∈ conns then conns else conns ++ [s])) []

/-- cmd/grpc/client/manager/mod.go:36-62 `Connect`: one entry per configured address. -/
def connectActor (dial : String → Res Unit) (addresses : List String) : Res (List String) :=
  addresses.mapM (fun s => do
    let _ ← dial s
    ok s)

/-- cmd/grpc/client/main.go:342-359 and manager/mod.go:145-170: the infos in the order of arrival; a failing RPC ends
the program. -/
def gatherInfos (net : Net) (S : Schedule) (servers : List String) : Res (List DbInfo) := do
  let infos ← servers.mapM (fun a => orFatal (net.info a))
  ok (S.infos infos)

/-- cmd/grpc/client/manager/mod.go:93-103, 195-204: the messages that leave the client; the `i`-th query goes to the
`i`-th server. -/
def sends (servers : List String) (queries : List (List Byte)) : Res (List (String × List Byte)) :=
  servers.zipIdx.mapM (fun c => do
    let q ← idx queries c.2
    ok (c.1, q))

/-- cmd/grpc/client/manager/mod.go:188-213 `RunQueries` (and 93-113): the answers are returned in the order of arrival;
a failing RPC ends the program. -/
def runQueriesActor (net : Net) (S : Schedule) (servers : List String) (queries : List (List Byte)) :
    Res (List (List Byte)) := do
  let sent ← sends servers queries
  let answers ← sent.mapM (fun m => orFatal (net.answer m.1 m.2))
  ok (S.answers answers)

/-- cmd/grpc/client/main.go:394-419 `runQueries`: as above, in the order in which the map is enumerated. -/
def runQueries (net : Net) (S : Schedule) (conns : List String) (queries : List (List Byte)) :
    Res (List (List Byte)) :=
  runQueriesActor net S (S.conns conns) queries

/-! ### Looking up a key -/

/-- The libraries and random bytes used by a point client. -/
structure Lib where
  H : List Byte → List Byte
  dpf : Point.Dpf
  read : Nat → Res (List Byte)
  hash : Str → List Byte
  lower : Str → Str
  readRing : List Byte → Res (List Entity)
  armor : Entity → Res (List Byte)

/-- The database info as the point client holds it (cmd/grpc/client/main.go:383-389): no block lengths. -/
def pointInfo (i : DbInfo) : Database.Info :=
  { numRows := i.numRows, numColumns := i.numColumns, blockSize := i.blockSize, blockLengths := [],
    pirType := i.pirType, root := i.root, proofLen := i.proofLen }

/-- cmd/grpc/client/main.go:278-303 and manager/mod.go:71-90: the queries for an identifier, for `n` servers. The branch
of main.go:304-310 for the schemes "it" and "dpf" cannot be reached from `exec` and is left out. -/
def lookupQueries (L : Lib) (n : Nat) (info : Database.Info) (id : Str) : Res (List (List Byte) × Point.State) := do
  let hashKey ← hashToIndex L.hash id (info.numRows * info.numColumns)
  let inp := putBE32 (BitVec.ofNat 32 hashKey)
  Point.queryBytes L.dpf L.read info inp n

/-- cmd/grpc/client/main.go:278-340 `retrieveKeyGivenId` and manager/mod.go:71-142 `GetKey`; `n` is the number of
servers and `run` sends the queries. The texts put in front of error messages are left out. -/
def lookup (L : Lib) (n : Nat) (run : List (List Byte) → Res (List (List Byte))) (info : Database.Info) (id : Str) :
    Res (List Byte) := do
  let (queries, st) ← lookupQueries L n info id
  let answers ← run queries
  let result ← MerklePir.reconstructPIR L.H answers info st
  let result ← Padding.unPadBlock result
  let e ← recoverKeyFromBlock L.lower L.readRing result id
  L.armor e

/-! ### Complex queries of the command line -/

/-- cmd/grpc/client/main.go:46-62 `flags`, those that matter here. -/
structure Flags where
  scheme : String
  id : String
  target : String
  fromStart : Int
  fromEnd : Int
  and : Bool
  avg : Bool
deriving DecidableEq, Repr

/-- cmd/grpc/client/main.go:197-239, the first part of `retrieveComplexQuery`. -/
def complexQuery (hash : List Byte → List Byte) (mk : Int → Time) (f : Flags) : Res ClientFSS :=
  if !f.and && !f.avg then
    if f.target = "email" then toEmailClientFSS hash ⟨0, f.fromStart, f.fromEnd, f.and, false, false⟩ (bytes f.id)
    else if f.target = "algo" then toPKAClientFSS ⟨2, 0, 0, false, false, false⟩ f.id
    else if f.target = "creation" then toCreationTime mk ⟨1, 0, 0, false, false, false⟩ f.id
    else err ("unknown target" ++ f.target)
  else if f.and && !f.avg then
    toAndClientFSS hash mk ⟨0, 0, (bytes f.id).length, f.and, false, false⟩ (bytes f.id)
  else if f.and && f.avg then
    toEmailClientFSS hash ⟨0, f.fromStart, f.fromEnd, f.and, f.avg, false⟩ (bytes f.id)
  else crash "query not implemented"

/-- cmd/grpc/client/main.go:241-262 (and interactive/mod.go:440-469, web/mod.go:377-407): send a predicate query to `n`
servers and reconstruct. The client takes its randomness from `W`; `gob` encodes the messages to the servers. The query
is encoded and decoded again inside the client (`Encode`, `DecodeClientFSS`), which is taken to be the identity. -/
def complexResult (W : Predicate.World) (gob : Predicate.Msg → List Byte) (ex n : Nat)
    (run : List (List Byte) → Res (List (List Byte))) (q : ClientFSS) : Res U32 := do
  let (ms, st, _, _) ← Predicate.query W.env W.fuel ex W.rnd W.buf W.r1 W.r2 q n
  let answers ← run (ms.map gob)
  Predicate.reconstructBytes ex st answers

/-! ### The command-line client -/

/-- What is printed. -/
inductive Output where
  | key (armored : List Byte)
  | count (n : U32)
deriving DecidableEq, Repr

/-- cmd/grpc/client/main.go:150-192 `exec`; `typed` is what the user enters if no id is given. The numbers of executions
are those of lib/client/predicate_pir.go:19 and predicate_apir.go:21. -/
def exec (L : Lib) (W : Predicate.World) (gob : Predicate.Msg → List Byte) (mk : Int → Time) (net : Net) (S : Schedule)
    (conns : List String) (f : Flags) (typed : String) : Res Output := do
  let infos ← gatherInfos net S conns
  let info ← retrieveDBInfo infos
  if f.scheme = "pointPIR" ∨ f.scheme = "pointVPIR" then
    let id := if f.id = "" then typed else f.id
    if id = "" then crash "id not provided" else do
    let k ← lookup L conns.length (runQueries net S conns) (pointInfo info) (bytes id)
    ok (.key k)
  else if f.scheme = "complexPIR" then do
    let q ← complexQuery W.hash mk f
    let n ← complexResult W gob 1 conns.length (runQueries net S conns) q
    ok (.count n)
  else if f.scheme = "complexVPIR" then do
    let q ← complexQuery W.hash mk f
    let n ← complexResult W gob (Field.concurrentExecutions + 1) conns.length (runQueries net S conns) q
    ok (.count n)
  else err ("wrong scheme: " ++ f.scheme)

/-- cmd/grpc/client/main.go:102-118 `main` after the configuration is loaded: every error ends the program. -/
def main (L : Lib) (W : Predicate.World) (gob : Predicate.Msg → List Byte) (mk : Int → Time) (net : Net) (S : Schedule)
    (addresses : List String) (f : Flags) (typed : String) : Res Output := do
  let conns ← orFatal (connect net.dial addresses)
  orFatal (exec L W gob mk net S conns f typed)

/-! ### The interactive and the web client -/

/-- The message of lib/pgp/pgp.go:263, and cmd/grpc/client/interactive/mod.go:21, web/mod.go:41 `keyNotFoundErr`. -/
def keyNotFoundErr : String := "no key with the given email id is found"

/-- `strings.Contains`. -/
def contains (s sub : String) : Bool := decide (sub.toList <:+: s.toList)

/-- cmd/grpc/client/manager/mod.go:145-184 `GetDBInfos` followed by `GetKey` with the first info, as in
interactive/mod.go:184-191 and web/mod.go:226-234. -/
def actorLookup (L : Lib) (net : Net) (S : Schedule) (servers : List String) (email : Str) : Res (List Byte) := do
  let infos ← gatherInfos net S servers
  let infos ← getDBInfos infos
  let info ← idx infos 0
  lookup L servers.length (runQueriesActor net S servers) (pointInfo info) email

/-- What cmd/grpc/client/interactive/mod.go:172-205 `downloadKey` prints. -/
inductive Shown where
  | result (armored : List Byte)
  | noKey
deriving DecidableEq, Repr

/-- cmd/grpc/client/interactive/mod.go:172-205 `downloadKey` after the prompt. -/
def downloadKey (L : Lib) (net : Net) (S : Schedule) (servers : List String) (email : String) : Res Shown :=
  match actorLookup L net S servers (bytes email) with
  | ok k => ok (.result k)
  | err m => if contains m keyNotFoundErr then ok .noKey else err m
  | crash m => crash m

/-- What is written to the browser. -/
inductive Page where
  | error (code : Nat) (msg : String)
  | body (b : List Byte)
deriving DecidableEq, Repr

/-- cmd/grpc/client/web/mod.go:211-249 `gethandleRetreive`. A missing key and other failures of the agreement on the
database are told apart by the step in which they arise. -/
def handleRetrieve (L : Lib) (net : Net) (S : Schedule) (servers : List String) (req : Request) : Res Page :=
  match req.parse with
  | crash m => crash m
  | err m => ok (.error 500 ("failed to parse form: " ++ m))
  | ok () =>
    let email := req.value "email"
    if email = "" then ok (.error 400 "email argument not found") else do
    let infos ← gatherInfos net S servers
    match getDBInfos infos with
    | crash m => crash m
    | err m => ok (.error 500 ("failed to get db info: " ++ m))
    | ok infos => do
      let info ← idx infos 0
      match lookup L servers.length (runQueriesActor net S servers) (pointInfo info) (bytes email) with
      | ok k => ok (.body k)
      | err m =>
        if contains m keyNotFoundErr then ok (.body (bytes "key not found in block"))
        else ok (.error 500 ("failed to get result: " ++ m))
      | crash m => crash m

/-- cmd/grpc/client/web/mod.go:376-408 and interactive/mod.go:438-470 `executeStatsQuery`: always the authenticated
scheme; the number of servers is the number of infos. -/
def executeStatsQuery (W : Predicate.World) (gob : Predicate.Msg → List Byte) (net : Net) (S : Schedule)
    (servers : List String) (q : ClientFSS) : Res U32 := do
  let infos ← gatherInfos net S servers
  let infos ← getDBInfos infos
  let _ ← idx infos 0
  complexResult W gob (Field.concurrentExecutions + 1) infos.length (runQueriesActor net S servers) q

/-- The choices offered by cmd/grpc/client/interactive/mod.go:208-235, 238-250: what to count or average. -/
inductive Choice where
  | countEmail (beginWith : Bool) (text : String)
  | countAlgo (name : String)
  | countCreation (year : String)
  | avgEmail (beginWith : Bool) (text : String)
deriving DecidableEq, Repr

/-- cmd/grpc/client/interactive/mod.go:282-323, 325-348, 350-381, 383-421: the query of a choice. A year that is not a
non-negative number is asked for again (357-368); this is the error here. -/
def interactiveQuery (hash : List Byte → List Byte) (mk : Int → Time) (c : Choice) : Res ClientFSS :=
  match c with
  | .countEmail b text =>
    toEmailClientFSS hash ⟨0, if b then (bytes text).length else 0, if b then 0 else (bytes text).length, false, false,
      false⟩ (bytes text)
  | .countAlgo name => toPKAClientFSS ⟨2, 0, 0, false, false, false⟩ name
  | .countCreation year =>
    match atoi year.toList with
    | ok y => if y < 0 then err "please enter a positive integer"
        else toCreationTime mk ⟨1, 0, 0, false, false, false⟩ year
    | err _ => err "please enter a positive integer"
    | crash m => crash m
  | .avgEmail b text =>
    toEmailClientFSS hash ⟨0, if b then (bytes text).length else 0, if b then 0 else (bytes text).length, true, true,
      false⟩ (bytes text)

/-- cmd/grpc/client/interactive/mod.go:238-280, 383-436: ask, run, show the number. -/
def getStats (W : Predicate.World) (gob : Predicate.Msg → List Byte) (mk : Int → Time) (net : Net) (S : Schedule)
    (servers : List String) (c : Choice) : Res U32 := do
  let q ← interactiveQuery W.hash mk c
  executeStatsQuery W gob net S servers q

/-- cmd/grpc/client/interactive/mod.go:320, 345, 378, 421: the description of a choice. -/
def caption (c : Choice) : String :=
  match c with
  | .countEmail b text => "all emails that " ++ (if b then "begin with" else "end with") ++ " '" ++ text ++ "'"
  | .countAlgo name => "all emails that uses the '" ++ name ++ "' algorithm"
  | .countCreation year => "all emails created before year '" ++ year ++ "'"
  | .avgEmail b text =>
    "average lifetime of all emails that " ++ (if b then "begin with" else "end with") ++ " '" ++ text ++ "'"

/-- cmd/grpc/client/interactive/mod.go:271-277, 427-433: the line printed at the end of `getStats`. -/
def showStats (W : Predicate.World) (gob : Predicate.Msg → List Byte) (mk : Int → Time) (net : Net) (S : Schedule)
    (servers : List String) (c : Choice) : Res String := do
  let n ← getStats W gob mk net S servers c
  ok ("Result of " ++ caption c ++ ": " ++ toString n.toNat ++ ".\n Type enter to continue.")

end Verif.Client
