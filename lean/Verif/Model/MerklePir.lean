import Verif.Model.Point
import Verif.Model.Merkle
import Verif.Model.Padding

/-! # Model of Merkle-authenticated point retrieval

lib/database/merkle.go and the authenticated branch of lib/client/client.go. -/

namespace Verif.MerklePir
open Res Verif.Database Verif.Merkle Verif.Padding Verif.Point

/-- lib/database/merkle.go:95-104, one record of `generateMerkleProofs`: the record, its encoded proof and the signal
byte; an error from `GenerateProof` ends the program. -/
def sealRecord (ck : List Byte → U64) (t : Tree) (d : List Byte) : Res (List Byte) :=
  match generateProof ck t d with
  | err m => crash m
  | crash m => crash m
  | ok p => do
    let enc ← encodeProof p
    ok (d ++ padWithSignalByte enc)

/-- lib/database/merkle.go:92-108 `generateMerkleProofs`. -/
def generateMerkleProofs (ck : List Byte → U64) (t : Tree) (data : List (List Byte)) : Res (List Byte) :=
  data.foldlM (fun result d => do
    let s ← sealRecord ck t d
    ok (result ++ s)) []

/-- lib/database/merkle.go:68-90 `makeMerkleEntries`; `NGoRoutines` is 1 in the code, so there is one chunk, from 0 to
`nRows * nColumns`. -/
def makeMerkleEntries (ck : List Byte → U64) (blocks : List (List Byte)) (t : Tree) (nRows nColumns : Nat) :
    Res (List Byte) := do
  let chunk ← slice blocks 0 (nRows * nColumns)
  generateMerkleProofs ck t chunk

/-- lib/database/merkle.go:21-32: the random bytes cut into blocks. -/
def cutBlocks (data : List Byte) (numBlocks blockLen : Nat) : Res (List (List Byte)) :=
  forLoop numBlocks (fun i bs => do
    let s ← slice data (i * blockLen) ((i + 1) * blockLen)
    let b ← copyAt (List.replicate blockLen 0) 0 s
    ok (bs ++ [b])) []

/-- lib/database/merkle.go:14-66 `CreateRandomMerkle`. `H` stands for BLAKE3 and `ck` for the checksum, `read n` are
the `n` bytes delivered by the random source. -/
def createRandomMerkle (H : List Byte → List Byte) (ck : List Byte → U64) (read : Nat → Res (List Byte))
    (dbLen numRows blockLen : Nat) : Res Bytes := do
  if 8 * blockLen = 0 then crash "integer divide by zero" else
  let numBlocks := dbLen / (8 * blockLen)
  let data ← read (numBlocks * blockLen)
  let blocks ← cutBlocks data numBlocks blockLen
  match newUsing H 32 ck blocks with
  | err m => crash m
  | crash m => crash m
  | ok tree => do
    if numRows = 0 then crash "integer divide by zero" else
    let numColumns := numBlocks / numRows
    let proofLen := encodedProofLength 32 tree
    let blockLen := blockLen + proofLen + 1
    let blockLens ← forLoop (numRows * numColumns) (fun b bl => setAt bl b blockLen)
      (List.replicate (numRows * numColumns) 0)
    let entries ← makeMerkleEntries ck blocks tree numRows numColumns
    let root ← root tree
    ok ⟨entries, { numRows := numRows, numColumns := numColumns, blockSize := blockLen, blockLengths := blockLens,
                   pirType := "merkle", root := root, proofLen := proofLen }⟩

/-- lib/client/client.go:58-72, the authenticated case after the block value is known. `block[len(block)-ProofLen:]`
panics for blocks shorter than the proof; the proof may be decoded past the end of `block`, into the bytes that were
cut off by the unpadding, because Go slices keep their capacity. -/
def checkBlock (H : List Byte → List Byte) (info : Info) (value : List Byte) : Res (List Byte) := do
  let block ← unPadBlock value
  if block.length < info.proofLen then crash "slice bounds out of range" else
  let data := block.take (block.length - info.proofLen)
  let encodedProof := block.drop (block.length - info.proofLen)
  let proof ← decodeProof encodedProof (value.drop block.length)
  let verified ← verifyProof H data proof info.root
  if verified then ok data else err "REJECT!"

/-- lib/client/client.go:49-76 `reconstructPIR`. A missing `*Merkle` part of the database info is not modelled (it is
present whenever the type is "merkle" in databases made by this repository). -/
def reconstructPIR (H : List Byte → List Byte) (answers : List (List Byte)) (info : Info) (st : State) :
    Res (List Byte) :=
  if info.pirType = "classical" ∨ info.pirType = "" then reconstructValue answers info st
  else if info.pirType = "merkle" then reconstructValue answers info st >>= checkBlock H info
  else crash "unknown PIRType"

/-- The whole exchange, as `retrieve`, with the authenticated reconstruction of
lib/client/pir_point.go:70-78 `ReconstructBytes`. -/
def retrieveAuth (H : List Byte → List Byte) (dpf : Dpf) (read : Nat → Res (List Byte)) (mode : Nat) (db : Bytes)
    (index numServers : Int) : Res (List Byte) := do
  let (qs, st) ← query dpf read db.info index numServers
  let answers ← qs.mapM (answer dpf mode db)
  reconstructPIR H answers db.info st

end Verif.MerklePir
