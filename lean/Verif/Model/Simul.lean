import Verif.Model.Deploy

/-! # Model of the multi-server experiments

simulations/multi/server/server.go and simulations/multi/client/client.go: servers with a random database, and a client
that retrieves blocks or counts keys repeatedly and reports the number of bytes sent. Options are natural numbers: the
default -1 of the size options stands for "not given". Logging and timing are left out, except for the reported number of
bytes. -/

namespace Verif.Simul
open Res Verif.Cmd Verif.Client Verif.Deploy Verif.Query

/-! ### The servers -/

/-- simulations/multi/server/server.go:37-42: the options that matter. -/
structure ServerFlags where
  scheme : String
  elemBitSize : Nat
  dbLen : Nat
  nRows : Nat
  blockLen : Nat
  servers : Nat
deriving DecidableEq, Repr

/-- The generator of `math/rand`: its state after `rand.Seed`, and `rand.Intn` / `rand.Int63n` for a positive argument. -/
structure MathRand where
  State : Type
  seed : Int → State
  intn : Nat → State → Nat × State

/-- The machine of a server: libraries as in `Deploy.Machine`, the generator of `math/rand`, the first bytes delivered by
`utils.NewPRG` with the fixed key (server.go:31, 87-90), the conversion of Unix seconds to a time, and what a predicate
query is answered with. -/
structure Host where
  H : List Byte → List Byte
  ck : List Byte → Merkle.U64
  dpf : Point.Dpf
  rand : MathRand
  prg : Nat → Res (List Byte)
  unix : Int → Time
  queryHash : List Byte → List Byte
  ungob : List Byte → Res Predicate.Msg
  bind : String → Res Unit
  env : Nat → Fss.Env
  now : Nat → Int
  buf : List Byte

/-- `s[:3]`. -/
def first3 (s : String) : Res (List Byte) := slice (bytes s) 0 3

/-- simulations/multi/server/server.go:92-101: the number of rows. -/
def numRows (f : ServerFlags) : Res Nat := do
  let p ← first3 f.scheme
  let numBlocks ← if p ≠ bytes "cmp" then
      if f.elemBitSize * f.blockLen = 0 then crash "integer divide by zero" else ok (f.dbLen / (f.elemBitSize * f.blockLen))
    else ok f.dbLen
  if f.nRows ≠ 1 then
    let numBlocks := Layout.increaseToNextSquare numBlocks
    let (m, s) := Layout.sqrtF64 numBlocks
    ok (m / 2 ^ s)
  else ok f.nRows

/-- lib/utils/utils.go:40-47 `Randate`: seconds; 946598400 and 1638230400 are 31 December 1999 and 30 November 2021. -/
def randate (R : MathRand) (st : R.State) : Int × R.State :=
  let (d, st) := R.intn (1638230400 - 946598400) st
  (d + 946598400, st)

/-- lib/utils/utils.go:49-57 `Ranstring`: `n` letters or digits. -/
def ranstring (R : MathRand) (n : Nat) (st : R.State) : Res (List Byte × R.State) :=
  let letters := bytes "abcdefghijklmnopqrstuvwxyz0123456789"
  forLoop n (fun _ (s : List Byte × R.State) => do
    let (k, st) := R.intn letters.length s.2
    let l ← idx letters k
    ok (s.1 ++ [l], st)) ([], st)

/-- lib/database/db.go:123-158 `CreateRandomKeysDB`. `packet.NewUserId` keeps the e-mail address, as it has no special
characters. -/
def createRandomKeysDB (R : MathRand) (unix : Int → Time) (numIdentifiers : Nat) : Res Predicate.KeyDB := do
  let (keys, _) ← forLoop numIdentifiers (fun _ (s : List Predicate.KeyInfo × R.State) => do
    let (ct, st) := randate R s.2
    let algorithms : List Byte := [1, 16, 17, 18, 19]
    let (a, st) := R.intn algorithms.length st
    let pka ← idx algorithms a
    let (id, st) ← ranstring R 32 st
    ok (s.1 ++ [⟨id, unix ct, pka⟩], st)) ([], R.seed (2 * 2 ^ 32 - 7))
  ok ⟨numIdentifiers, keys⟩

/-- lib/server/fss.go:27-40 `answerBytes` for the server with number `sn`. -/
def predicateAnswer (M : Host) (sn : Byte) (ex : Nat) (db : Predicate.KeyDB) (q : List Byte) : Res (List Byte) := do
  let m ← M.ungob q
  let (a, _) ← Predicate.answer M.queryHash M.env M.now sn db ex M.buf m
  Utils.uint32SliceToByteSlice a

/-- simulations/multi/server/server.go:92-140 and 196-216 `DatabaseInfo`: create the database and select the server. -/
def makeServer (M : Host) (sid : Nat) (f : ServerFlags) : Res (DbInfo × (List Byte → Res (List Byte))) := do
  let rows ← numRows f
  if f.scheme = "pir-classic" then do
    let db ← orFatal (Database.createRandomBytes M.prg f.dbLen rows f.blockLen)
    ok (pointDbInfo db, Point.answer M.dpf (if f.servers = 2 then 2 else 0) db)
  else if f.scheme = "pir-merkle" then do
    let db ← orFatal (MerklePir.createRandomMerkle M.H M.ck M.prg f.dbLen rows f.blockLen)
    ok (pointDbInfo db, Point.answer M.dpf (if f.servers = 2 then 2 else 0) db)
  else if f.scheme = "fss-classic" ∨ f.scheme = "fss-auth" then do
    let db ← orFatal (createRandomKeysDB M.rand M.unix 100000)
    let ex := if f.scheme = "fss-classic" then 1 else 1 + Field.concurrentExecutions
    ok (⟨0, db.keys.length, 0, "", [], 0⟩, predicateAnswer M (BitVec.ofNat 8 sid) ex db)
  else crash "unknow scheme"

/-- simulations/multi/server/server.go:34-159 `main`, for the server number `sid` read from a file (232-246). The HTTP server
(161-174) is left out. -/
def serverMain (M : Host) (config : List (List Char × Server)) (sid : Nat) (f : ServerFlags) : Res Running := do
  let addresses ← orFatal (loadConfig config)
  let addr ← idx addresses sid
  let _ ← idx (List.range numCertificates) sid
  let _ ← orFatal (M.bind addr)
  let s ← makeServer M sid f
  ok ⟨addr, s.1, s.2⟩

/-! ### The client -/

/-- simulations/multi/client/client.go:44-57 `flags`, those that matter. -/
structure ClientFlags where
  repetitions : Nat
  numServers : Nat
  elemBitSize : Nat
  bitsToRetrieve : Nat
  scheme : String
  inputSize : Nat
deriving DecidableEq, Repr

/-- simulations/multi/client/client.go:361-364 `bitsToBlocks`, the exact ceiling (equal to the floating-point one for up to
2^53 bits, see C100). A zero divisor, for which the conversion to `int` is not defined by the language, ends the model. -/
def bitsToBlocks (blockSize elemSize numBits : Nat) : Res Nat :=
  if blockSize * elemSize = 0 then crash "conversion of infinity" else
  ok ((numBits + blockSize * elemSize - 1) / (blockSize * elemSize))

/-- What one repetition reports (client.go:201, 248) and finds; the program drops what it finds. -/
structure Round (α : Type _) where
  sent : Nat
  found : α
deriving DecidableEq, Repr

/-- Number of bytes of the queries (client.go:184-187, 230-233). -/
def bytesOf (queries : List (List Byte)) : Nat := (queries.map List.length).sum

/-- simulations/multi/client/client.go:223-243, retrieval of one block. -/
def retrieveBlock (H : List Byte → List Byte) (dpf : Point.Dpf) (read : Nat → Res (List Byte)) (net : Net) (S : Schedule)
    (conns : List String) (info : Database.Info) (index : Nat) : Res (Nat × List Byte) := do
  let inp := putBE32 (BitVec.ofNat 32 index)
  let (queries, st) ← orFatal (Point.queryBytes dpf read info inp conns.length)
  let answers ← runQueries net S conns queries
  let block ← orFatal (MerklePir.reconstructPIR H answers info st)
  ok (bytesOf queries, block)

/-- simulations/multi/client/client.go:206-250 `retrievePointPIR`. `intn` is the number drawn by `rand.Intn`; the `c`-th
query uses the random bytes `read c`, finds the servers as `net c` and meets the orders `S c`. -/
def retrievePointPIR (H : List Byte → List Byte) (dpf : Point.Dpf) (intn : Nat → Nat) (read : Nat → Nat → Res (List Byte))
    (net : Nat → Net) (S : Nat → Schedule) (conns : List String) (info : Database.Info) (f : ClientFlags) :
    Res (List (Round (List (List Byte)))) := do
  let numTotalBlocks := info.numRows * info.numColumns
  let numRetrieveBlocks ← bitsToBlocks info.blockSize f.elemBitSize f.bitsToRetrieve
  if numTotalBlocks ≤ numRetrieveBlocks then crash "invalid argument to Intn" else
  let startIndex := intn (numTotalBlocks - numRetrieveBlocks)
  forLoop f.repetitions (fun j rounds => do
    let r ← forLoop numRetrieveBlocks (fun i (r : Round (List (List Byte))) => do
      let c := j * numRetrieveBlocks + i
      let (bw, block) ← retrieveBlock H dpf (read c) (net c) (S c) conns info (startIndex + i)
      ok ⟨r.sent + bw, r.found ++ [block]⟩) ⟨0, []⟩
    ok (rounds ++ [r])) []

/-- simulations/multi/client/client.go:170-201, one repetition of `retrieveComplexPIR`. The query is handed over
as a value: the encoding that `q.Encode` and `QueryBytes` add (174-178) is left out. -/
def complexRound (W : Predicate.World) (gob : Predicate.Msg → List Byte) (ex n : Nat)
    (run : List (List Byte) → Res (List (List Byte))) (q : ClientFSS) : Res (Round U32) := do
  let (ms, st, _, _) ← orFatal (Predicate.query W.env W.fuel ex W.rnd W.buf W.r1 W.r2 q n)
  let answers ← run (ms.map gob)
  let r ← orFatal (Predicate.reconstructBytes ex st answers)
  ok ⟨bytesOf (ms.map gob), r⟩

/-- simulations/multi/client/client.go:159-204 `retrieveComplexPIR`; `st` is the state of `math/rand`. The `j`-th repetition
uses the randomness `W j`, finds the servers as `net j` and meets the orders `S j`. -/
def retrieveComplexPIR (R : MathRand) (st : R.State) (W : Nat → Predicate.World) (gob : Predicate.Msg → List Byte) (ex : Nat)
    (net : Nat → Net) (S : Nat → Schedule) (conns : List String) (f : ClientFlags) : Res (List (Round U32)) := do
  let (s, _) ← ranstring R f.inputSize st
  let bits ← Utils.byteToBits s
  let q : ClientFSS := ⟨⟨0, f.inputSize, 0, false, false, false⟩, bits⟩
  forLoop f.repetitions (fun j rounds => do
    let r ← complexRound (W j) gob ex conns.length (runQueries (net j) (S j) conns) q
    ok (rounds ++ [r])) []

/-- What the client finds. -/
inductive Outcome where
  | blocks (rounds : List (Round (List (List Byte))))
  | counts (rounds : List (Round U32))
deriving DecidableEq, Repr

/-- The libraries and randomness of the client. -/
structure ClientHost where
  H : List Byte → List Byte
  dpf : Point.Dpf
  rand : MathRand
  randState : rand.State
  read : Nat → Nat → Res (List Byte)
  worlds : Nat → Predicate.World
  gob : Predicate.Msg → List Byte

/-- simulations/multi/client/client.go:137-157 `exec` and 282-311 `retrieveDBInfo`; the infos arrive in the order of `S 0`. -/
def exec (C : ClientHost) (net : Nat → Net) (S : Nat → Schedule) (conns : List String) (f : ClientFlags) : Res Outcome := do
  let infos ← gatherInfos (net 0) (S 0) conns
  let info ← orFatal (retrieveDBInfo infos)
  if f.scheme = "pir-classic" ∨ f.scheme = "pir-merkle" then do
    let r ← retrievePointPIR C.H C.dpf (fun n => (C.rand.intn n C.randState).1) C.read net S conns (pointInfo info) f
    ok (.blocks r)
  else if f.scheme = "fss-classic" then do
    let r ← retrieveComplexPIR C.rand C.randState C.worlds C.gob 1 net S conns f
    ok (.counts r)
  else if f.scheme = "fss-auth" then do
    let r ← retrieveComplexPIR C.rand C.randState C.worlds C.gob (Field.concurrentExecutions + 1) net S conns f
    ok (.counts r)
  else err ("wrong scheme: " ++ f.scheme)

/-- simulations/multi/client/client.go:81-135 `newLocalClient` and `main`, 252-271 `connectToServers`. -/
def clientMain (C : ClientHost) (config : List (List Char × Server)) (net : Nat → Net) (S : Nat → Schedule)
    (f : ClientFlags) : Res Outcome := do
  let addresses ← orFatal (loadConfig config)
  let used ← slice addresses 0 f.numServers
  let conns ← orFatal (connect (net 0).dial used)
  orFatal (exec C net S conns f)

end Verif.Simul
