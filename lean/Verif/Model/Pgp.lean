import Verif.Model.Layout
import Verif.Model.MerklePir

/-! # Model of the key database and of key lookup

lib/pgp/pgp.go, lib/database/pgp.go, lib/database/db.go:160-165 and cmd/grpc/client/manager/mod.go:71-142.

Strings are byte strings. The OpenPGP library (parsing, serialising, armouring), BLAKE2b, `strings.ToLower` and
`sort.Slice` are parameters. Go maps are association lists with distinct keys; where the code ranges over a map, the
function takes an `order` argument that stands for the order in which the runtime enumerates the entries. Files are the
sequences of values that gob encodes and decodes. -/

namespace Verif.Pgp
open Res Verif.Database Verif.Merkle Verif.Padding Verif.Point Verif.MerklePir Verif.Layout

abbrev Str := List Byte

/-- Go's `a < b` on strings: lexicographic by bytes. -/
def strLt (a b : Str) : Bool := decide (a.map BitVec.toNat < b.map BitVec.toNat)

/-- `openpgp.Entity`, the parts the code looks at: number of revocations, e-mail of the primary identity, e-mails of all
identities in the order in which the runtime enumerates the identity map, creation time of the primary key, subkeys;
`rest` is everything else. -/
structure Entity where
  revocations : Nat
  primary : Str
  emails : List Str
  created : Int
  subkeys : List (List Byte)
  rest : List Byte
deriving DecidableEq, Repr

/-- lib/pgp/pgp.go:31-34 `Key`. -/
structure Key where
  id : Str
  packet : List Byte
deriving DecidableEq, Repr

/-- Assignment to a Go map. -/
def mset {α β : Type _} [DecidableEq α] (m : List (α × β)) (k : α) (v : β) : List (α × β) :=
  (k, v) :: m.filter (fun e => e.1 ≠ k)

/-- Lookup in a Go map. -/
def mget {α β : Type _} [DecidableEq α] (m : List (α × β)) (k : α) : Option β :=
  (m.find? (fun e => e.1 = k)).map (·.2)

/-- lib/pgp/pgp.go:233-245 `PrimaryEmail`. -/
def primaryEmail (lower : Str → Str) (e : Entity) : Str :=
  let email := e.primary
  let email := if email = [] then
      e.emails.foldl (fun email id => if id ≠ [] ∧ (email = [] ∨ strLt id email) then id else email) email
    else email
  lower email

/-- lib/pgp/pgp.go:63-94 `saveKeyIfValid`; `Before` compares creation times. -/
def saveKeyIfValid (lower : Str → Str) (keyMap : List (Str × Entity)) (e : Entity) : List (Str × Entity) :=
  if 0 < e.revocations then keyMap else
  let email := primaryEmail lower e
  if email = [] then keyMap else
  let e := { e with subkeys := [] }
  match mget keyMap email with
  | none => mset keyMap email e
  | some prev => if prev.created < e.created then mset keyMap email e else keyMap

/-- lib/pgp/pgp.go:36-61 `AnalyzeKeyDump`; each file is the result of opening and parsing it. -/
def analyzeKeyDump (lower : Str → Str) (files : List (Res (List Entity))) : Res (List (Str × Entity)) :=
  files.foldlM (fun keys file => do
    let el ← file
    ok (el.foldl (saveKeyIfValid lower) keys)) []

/-- lib/pgp/pgp.go:96-129 `WriteKeysOnDisk`: the keys written to the file. File system errors are not modelled. -/
def writeKeysOnDisk (serialize : Entity → Res (List Byte)) (order : List (Str × Entity) → List (Str × Entity))
    (entities : List (Str × Entity)) : Res (List Key) :=
  (order entities).foldlM (fun out x => do
    let buf ← serialize x.2
    if 8192 < buf.length then ok out else ok (out ++ [⟨x.1, buf⟩])) []

/-- lib/pgp/pgp.go:169-193 `LoadKeysFromDisk`; each file is the result of opening and decoding it. -/
def loadKeysFromDisk (files : List (Res (List Key))) : Res (List Key) :=
  files.foldlM (fun keys file => do
    let ks ← file
    ok (keys ++ ks)) []

/-- lib/database/db.go:160-165 `HashToIndex`; the remainder by `uint32(length) = 0` panics. -/
def hashToIndex (hash : Str → List Byte) (id : Str) (length : Nat) : Res Nat := do
  let h ← slice (hash id) 0 4
  let x ← getBE32 h
  if length % 2 ^ 32 = 0 then crash "integer divide by zero" else ok (x.toNat % (length % 2 ^ 32))

/-- lib/database/pgp.go:149-160 `makeHashTable`. -/
def makeHashTable (hash : Str → List Byte) (keys : List Key) (tableLen : Nat) : Res (List (Nat × List Byte)) :=
  keys.foldlM (fun db key => do
    let hashKey ← hashToIndex hash key.id tableLen
    ok (mset db hashKey ((mget db hashKey).getD [] ++ key.packet))) []

/-- lib/utils/utils.go:16-25 `MaxBytesLength`, over the values in the order of enumeration. -/
def maxBytesLength (vs : List (List Byte)) : Nat :=
  vs.foldl (fun max v => if max < v.length then v.length else max) 0

/-- lib/database/pgp.go:74-79 and 106-110: padded buckets in the order of their positions; a bucket without key stays
nil. -/
def tableBlocks (n : Nat) (entries : List (Nat × List Byte)) : Res (List (List Byte)) :=
  entries.foldlM (fun blocks x => setAt blocks x.1 (padWithSignalByte x.2)) (List.replicate n [])

/-- The enumeration orders of the two loops over the hash table in `GenerateRealKeyBytes`. -/
structure Orders where
  first : List (Nat × List Byte) → List (Nat × List Byte)
  second : List (Nat × List Byte) → List (Nat × List Byte)

/-- lib/database/pgp.go:53-90 `GenerateRealKeyBytes`, from the loaded keys on. `sort` is line 63 `sortById`. -/
def generateRealKeyBytes (hash : Str → List Byte) (sort : List Key → List Key) (order : Orders) (loaded : List Key)
    (rebalanced : Bool) : Res Bytes := do
  let keys := sort loaded
  let (numRows, numColumns) := calculateNumRowsAndColumns (preSquareNumBlocks keys.length) rebalanced
  let ht ← makeHashTable hash keys (numRows * numColumns)
  let blockLen := maxBytesLength ((order.first ht).map (·.2)) + 1
  let blocks ← tableBlocks (numRows * numColumns) (order.second ht)
  let (lens, entries) ← forLoop blocks.length (fun k st => do
    let block ← idx blocks k
    let lens ← setAt st.1 k block.length
    ok (lens, st.2 ++ block)) (List.replicate (numRows * numColumns) 0, [])
  ok ⟨entries, { numRows := numRows, numColumns := numColumns, blockSize := blockLen, blockLengths := lens,
                 pirType := "", root := [], proofLen := 0 }⟩

/-- lib/database/pgp.go:92-147 `GenerateRealKeyMerkle`, from the loaded keys on. `H` stands for BLAKE3 and `ck` for the
checksum of the tree. -/
def generateRealKeyMerkle (H : List Byte → List Byte) (ck : List Byte → U64) (hash : Str → List Byte)
    (sort : List Key → List Key) (order : Orders) (loaded : List Key) (rebalanced : Bool) : Res Bytes := do
  let keys := sort loaded
  let (numRows, numColumns) := calculateNumRowsAndColumns (preSquareNumBlocks keys.length) rebalanced
  let ht ← makeHashTable hash keys (numRows * numColumns)
  let blocks ← tableBlocks (numRows * numColumns) (order.second ht)
  let tree ← newUsing H 32 ck blocks
  let proofLen := encodedProofLength 32 tree
  let (lens, maxBlockLen) ← forLoop (numRows * numColumns) (fun i st => do
    let block ← idx blocks i
    let l := block.length + proofLen + 1
    let lens ← setAt st.1 i l
    ok (lens, if st.2 < l then l else st.2)) (List.replicate (numRows * numColumns) 0, 0)
  let entries ← makeMerkleEntries ck blocks tree numRows numColumns
  let root ← root tree
  ok ⟨entries, { numRows := numRows, numColumns := numColumns, blockSize := maxBlockLen, blockLengths := lens,
                 pirType := "merkle", root := root, proofLen := proofLen }⟩

/-- lib/database/pgp.go:17-51 `GenerateRealKeyDB`, from the loaded keys on: the list of key descriptions. `info` is
`GetKeyInfoFromPacket`, whose error ends the program. -/
def generateRealKeyDB {κ : Type _} (info : List Byte → Res κ) (sort : List Key → List Key) (loaded : List Key) :
    Res (List κ) :=
  (sort loaded).mapM (fun k => match info k.packet with
    | ok x => ok x
    | err m => crash m
    | crash m => crash m)

/-- lib/pgp/pgp.go:249-264 `RecoverKeyFromBlock`; `readRing` is `openpgp.ReadKeyRing`. -/
def recoverKeyFromBlock (lower : Str → Str) (readRing : List Byte → Res (List Entity)) (block : List Byte)
    (email : Str) : Res Entity := do
  let el ← readRing block
  match el.find? (fun e => primaryEmail lower e = email) with
  | some e => ok e
  | none => err "no key with the given email id is found"

/-- cmd/grpc/client/manager/mod.go:71-142 `GetKey`, with servers that answer honestly (their answers may arrive in any
order, which is C05). An armouring error is returned as an error. -/
def getKey (H : List Byte → List Byte) (dpf : Dpf) (read : Nat → Res (List Byte)) (hash : Str → List Byte)
    (lower : Str → Str) (readRing : List Byte → Res (List Entity)) (armor : Entity → Res (List Byte)) (mode : Nat)
    (db : Bytes) (n : Nat) (id : Str) : Res (List Byte) := do
  let hashKey ← hashToIndex hash id (db.info.numRows * db.info.numColumns)
  let inp := putBE32 (BitVec.ofNat 32 hashKey)
  let (qs, st) ← queryBytes dpf read db.info inp n
  let answers ← qs.mapM (answer dpf mode db)
  let result ← reconstructPIR H answers db.info st
  let result ← unPadBlock result
  let e ← recoverKeyFromBlock lower readRing result id
  armor e

end Verif.Pgp
