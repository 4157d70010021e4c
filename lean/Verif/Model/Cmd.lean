import Verif.Model.Query
import Verif.Model.Pgp

/-! # Model of the command-line programs around the schemes

Server configuration, agreement on the database parameters, the counting pages of the web front end and the splitting of
a key dump. -/

namespace Verif.Cmd
open Res Verif.Query

/-! ### Numbers -/

/-- `strconv.Atoi`: an optional sign, then one or more decimal digits, within the range of a 64-bit integer. -/
def atoi (s : List Char) : Res Int :=
  let neg := s.head? = some '-'
  let digits := if s.head? = some '-' ∨ s.head? = some '+' then s.tail else s
  if digits = [] ∨ ¬ digits.all (fun c => '0' ≤ c ∧ c ≤ '9') then err "invalid syntax" else
  let n := digits.foldl (fun (n : Nat) c => 10 * n + (c.toNat - '0'.toNat)) 0
  if neg then (if n ≤ 2 ^ 63 then ok (-(n : Int)) else err "value out of range")
  else (if n < 2 ^ 63 then ok (n : Int) else err "value out of range")

/-! ### Configuration -/

/-- lib/utils/config.go:17-21 `Server`; the field `Index` is not used. -/
structure Server where
  index : Int
  ip : String
  port : Int
deriving DecidableEq, Repr

/-- lib/utils/config.go:38 `fmt.Sprintf("%s:%d", ...)`. -/
def address (s : Server) : String := s.ip ++ ":" ++ toString s.port

/-- lib/utils/config.go:23-43 `LoadConfig` after the decoding of the file; `servers` lists the entries of the map in the
order of the iteration. -/
def loadConfig (servers : List (List Char × Server)) : Res (List String) :=
  servers.foldlM (fun (addresses : List String) (e : List Char × Server) => do
    let i ← atoi e.1
    if i < 0 then crash "index out of range" else
    setAt addresses i.toNat (address e.2)) (List.replicate servers.length "")

/-! ### Agreement on the database -/

/-- lib/database/db.go:35-46, 70-73 `Info` and `Merkle`, the fields that are sent to the clients. -/
structure DbInfo where
  numRows : Nat
  numColumns : Nat
  blockSize : Nat
  pirType : String
  root : List Byte
  proofLen : Nat
deriving DecidableEq, Repr

/-- cmd/grpc/server/main.go:239-254 `DatabaseInfo` followed by cmd/grpc/client/manager/mod.go:239-261 `getDBInfo`
(cmd/grpc/client/main.go:373-392 `dbInfo` is the same): the numbers are sent as 32-bit words. -/
def transmit (i : DbInfo) : DbInfo :=
  { i with numRows := i.numRows % 2 ^ 32, numColumns := i.numColumns % 2 ^ 32, blockSize := i.blockSize % 2 ^ 32,
           proofLen := i.proofLen % 2 ^ 32 }

/-- cmd/grpc/client/main.go:448-460 `equalDBInfo`. -/
def equalDBInfo (infos : List DbInfo) : Bool :=
  match infos with
  | [] => true
  | first :: _ => infos.all (fun i =>
      decide (first.numRows = i.numRows) && decide (first.numColumns = i.numColumns) &&
      decide (first.blockSize = i.blockSize))

/-- cmd/grpc/client/manager/mod.go:145-184 `GetDBInfos`; `arrived` lists the infos in the order of arrival. Line 181
panics if there is no server. -/
def getDBInfos (arrived : List DbInfo) : Res (List DbInfo) :=
  if equalDBInfo arrived = false then err "db not equal" else do
  let _ ← idx arrived 0
  ok arrived

/-- cmd/grpc/client/main.go:342-371 `retrieveDBInfo`: the first info to arrive is used. -/
def retrieveDBInfo (arrived : List DbInfo) : Res DbInfo :=
  if equalDBInfo arrived = false then crash "got different database info from servers" else
  idx arrived 0

/-! ### Counting pages -/

/-- What is written to the client: an error page or a count. -/
inductive Write where
  | error (code : Nat) (msg : String)
  | count (n : U32)
deriving DecidableEq, Repr

/-- A parsed or unparsable form; a missing value is the empty string. -/
structure Request where
  parse : Res Unit
  value : String → String

/-- Bytes of a Go string. -/
def bytes (s : String) : List Byte := s.toUTF8.data.toList.map UInt8.toBitVec

/-- cmd/grpc/client/web/mod.go:251-304 `getHandleCountEmail`; `exec` is `executeStatsQuery`. -/
def handleCountEmail (hash : List Byte → List Byte) (exec : ClientFSS → Res U32) (req : Request) : Res (List Write) :=
  match req.parse with
  | crash m => crash m
  | err m => ok [.error 500 ("failed to parse form: " ++ m)]
  | ok () =>
    let position := req.value "position"
    if position = "" then ok [.error 400 "position argument not found"] else
    let text := req.value "text"
    if text = "" then ok [.error 400 "text argument not found"] else
    if position ≠ "begin" ∧ position ≠ "end" then ok [.error 500 ("unknown position: " ++ position)] else do
    let info : Info := ⟨0, if position = "begin" then ((bytes text).length : Int) else 0,
      if position = "begin" then 0 else ((bytes text).length : Int), false, false, false⟩
    let q ← toEmailClientFSS hash info (bytes text)
    match exec q with
    | crash m => crash m
    | err m => ok [.error 500 ("failed to execute count query: " ++ m)]
    | ok n => ok [.count n]

/-- cmd/grpc/client/web/mod.go:307-342 `getHandleCountAlgo`: there is no return after the error of line 335-338, and the
count is then 0. -/
def handleCountAlgo (exec : ClientFSS → Res U32) (req : Request) : Res (List Write) :=
  match req.parse with
  | crash m => crash m
  | err m => ok [.error 500 ("failed to parse form: " ++ m)]
  | ok () =>
    let algo := req.value "algo"
    if algo = "" then ok [.error 400 "algo argument not found"] else do
    let q ← toPKAClientFSS ⟨2, 0, 0, false, false, false⟩ algo
    match exec q with
    | crash m => crash m
    | err m => ok [.error 500 ("failed to execute count query: " ++ m), .count 0]
    | ok n => ok [.count n]

/-- lib/query/query.go:111-125 `ToCreationTimeClientFSS` with the parsing of the year; `log.Fatal` if it is not a
number. -/
def toCreationTime (mk : Int → Time) (i : Info) (year : String) : Res ClientFSS :=
  match atoi year.toList with
  | ok y => toCreationTimeClientFSS mk i y
  | err m => crash m
  | crash m => crash m

/-- cmd/grpc/client/web/mod.go:345-373 `getHandleCountTimestamp`: as above, there is no return after the error of line
366-369. -/
def handleCountTimestamp (mk : Int → Time) (exec : ClientFSS → Res U32) (req : Request) : Res (List Write) :=
  match req.parse with
  | crash m => crash m
  | err m => ok [.error 500 ("failed to parse form: " ++ m)]
  | ok () =>
    let year := req.value "year"
    if year = "" then ok [.error 400 "year argument not found"] else do
    let q ← toCreationTime mk ⟨1, 0, 0, false, false, false⟩ year
    match exec q with
    | crash m => crash m
    | err m => ok [.error 500 ("failed to execute count query: " ++ m), .count 0]
    | ok n => ok [.count n]

/-! ### Splitting a dump -/

/-- data/main.go:17 `hundredMb`. -/
def hundredMb : Nat := 104857600

/-- data/main.go:125: the size counted for a key. -/
def keySize (k : Pgp.Key) : Nat := k.packet.length + k.id.length

/-- The files written so far: the finished ones, the current one and the size counted for it. -/
structure Chunks where
  finished : List (List Pgp.Key)
  current : Option (List Pgp.Key)
  written : Nat

/-- data/main.go:92-107: a new file is begun if there is none or if the current one is over the limit. -/
def newChunk (limit : Nat) (c : Chunks) : Chunks :=
  match c.current with
  | none => { c with current := some [], written := 0 }
  | some f => if c.written > limit then ⟨c.finished ++ [f], some [], 0⟩ else c

/-- data/main.go:78-134 `splitFullDumpIntoChunks`: contents of the files `sks-000.pgp`, `sks-001.pgp`, ... and the error
returned. `keys` are the keys that can be decoded, `ending` is what the decoder returns after them (`ok` at the end of
the file). Errors of the file system are left out; the gob encoding of a file is taken to be the sequence of its keys. -/
def splitDump (limit : Nat) (keys : List Pgp.Key) (ending : Res Unit) : List (List Pgp.Key) × Res Unit :=
  let c := keys.foldl (fun c k =>
    let c := newChunk limit c
    { c with current := c.current.map (· ++ [k]), written := c.written + keySize k }) ⟨[], none, 0⟩
  let c := newChunk limit c
  (c.finished ++ c.current.toList, ending)

/-- Decimal digit as a character. -/
def digit (n : Nat) : Char := Char.ofNat (48 + n)

/-- data/main.go:94 `fmt.Sprintf("sks-%03d.pgp", outputNum)`. -/
def chunkName (n : Nat) : List Char :=
  "sks-".toList ++ (if n < 1000 then [digit (n / 100), digit (n / 10 % 10), digit (n % 10)] else Nat.toDigits 10 n) ++
    ".pgp".toList

/-- lib/pgp/pgp.go:140-150 `GetAllFiles` on the directory of the chunks followed by
cmd/grpc/server/main.go:343-355 `getSksFiles`: the first `filesNumber` of the files in the order of their names.
`sorted` lists the files of the directory sorted by name. -/
def getSksFiles {α : Type _} (sorted : List α) (filesNumber : Int) : Res (List α) :=
  if filesNumber < 0 then crash "slice bounds out of range" else slice sorted 0 filesNumber.toNat

end Verif.Cmd
