import Verif.Model.Simul
import Verif.Model.Dh
import Verif.Model.Lwe

/-! # Model of the single-machine experiments

simulations/simul.go, preprocessing.go and types.go: the program creates a random database for each configured length,
retrieves random bits from it and writes the sizes of the messages to a file. Profiling, logging, timing, garbage collection
and the reading and writing of files are left out. Configured numbers are natural numbers. Sizes are floating-point numbers
in the code, which are exact below 2^53. -/

namespace Verif.Local
open Res Verif.Client Verif.Matrix Verif.Lwe

/-- simulations/simul.go:29-47 `Simulation`, the fields that matter. -/
structure Config where
  dbBitLengths : List Nat
  repetitions : Nat
  primitive : String
  numRows : Nat
  blockLength : Nat
deriving DecidableEq, Repr

/-- simulations/types.go:3-13 `Chunk`, the sizes of one repetition (the times are left out; there is one block). -/
structure Chunk where
  digest : Nat
  query : Nat
  answer : Nat
deriving DecidableEq, Repr

/-- The machine: AES in counter mode, the group of the circl library (P-256) with the length of its elements, BLAKE2b-256,
the number of processors, BLAKE3 and the checksum of the Merkle tree; and the randomness: the bytes for the `d`-th database,
the numbers drawn by `rand.Intn` in repetition `j` on database `d` (`which` is 0 for the first one, 1 for the second one), the
coins of the LWE clients and the scalars of the DH client. -/
structure Host (G : Type) where
  aesctr : List Byte → Nat → Byte
  g : Dh.Grp G
  elementSize : Nat
  blake2 : List Byte → List Byte
  cpus : Nat
  H : List Byte → List Byte
  ck : List Byte → Merkle.U64
  read : Nat → Nat → Res (List Byte)
  intn : Nat → Nat → Nat → Nat → Nat
  coins : Nat → Nat → Nat → Coins
  scalars : Nat → Nat → Int × Int

variable {G : Type} [AddCommGroup G] [DecidableEq G]

/-- lib/matrix/matrix.go:206-208, matrix128.go:185-187 `BytesSize`; `k` is 4 or 16. -/
def bytesSize {w : Nat} (k : Nat) (m : Mat w) : Nat := m.rows * m.cols * k

/-- `rand.Intn(n)`, which panics for `n = 0`. -/
def draw (intn : Nat → Nat) (n : Nat) : Res Nat :=
  if n = 0 then crash "invalid argument to Intn" else ok (intn n)

/-- simulations/simul.go:205-245 `pirLWE128`. Besides the sizes the model keeps the position and the bit that was found, which
the program drops. -/
def pirLWE128 (M : Host G) (d : Nat) (db : Db 128) (nRepeat : Nat) : Res (List (Chunk × Nat × Nat × U32)) :=
  let p := paramsWithDatabaseSize128 db.numRows db.numColumns
  forLoop nRepeat (fun j results => do
    let ii ← draw (M.intn d j 0) db.numRows
    let jj ← draw (M.intn d j 1) db.numColumns
    let (st, query) ← query lwe128 M.aesctr p db.digest (M.coins d j 0) ii jj
    let answer ← answer lwe128 db query
    let bit ← orFatal (reconstruct lwe128 p st answer)
    ok (results ++ [(⟨bytesSize 16 db.digest, bytesSize 16 query, bytesSize 16 answer⟩, ii, jj, bit)])) []

/-- simulations/simul.go:247-286 `pirLWE`; `lib/client/amplify.go:18-30` makes `2*tECC+1` clients. -/
def pirLWE (M : Host G) (d : Nat) (db : Db 32) (nRepeat tECC : Nat) : Res (List (Chunk × Nat × Nat × U32)) :=
  let p := paramsWithDatabaseSize db.numRows db.numColumns
  forLoop nRepeat (fun j results => do
    let ii ← draw (M.intn d j 0) db.numRows
    let jj ← draw (M.intn d j 1) db.numColumns
    let qs ← amplifyQuery M.aesctr p db.digest ((List.range (tECC * 2 + 1)).map (M.coins d j)) ii jj
    let query := qs.map (·.2)
    let answer ← amplifyAnswer db query
    let bit ← orFatal (amplifyReconstruct p (qs.map (·.1)) answer)
    let q0 ← idx query 0
    let a0 ← idx answer 0
    ok (results ++ [(⟨bytesSize 4 db.digest, bytesSize 4 q0 * query.length, answer.length * bytesSize 4 a0⟩, ii, jj, bit)])) []

/-- simulations/simul.go:288-340 `pirElliptic`. -/
def pirElliptic (M : Host G) (d : Nat) (db : Dh.Elliptic) (nRepeat : Nat) : Res (List (Chunk × Nat × Byte)) := do
  let info ← Dh.newDH M.blake2 db.info
  forLoop nRepeat (fun j results => do
    let index ← draw (M.intn d j 0) (db.info.numRows * db.info.numColumns)
    let (query, st) ← orFatal (Dh.queryBytes M.g info (M.scalars d j).1 (M.scalars d j).2 index)
    let answer ← orFatal (Dh.answerBytes M.g db query)
    let bit ← orFatal (Dh.reconstructBytes M.g info st answer)
    ok (results ++ [(⟨db.info.subDigests.length + db.info.digest.length, query.length, answer.length⟩, index, bit)])) []

/-- simulations/preprocessing.go:14-74 `RandomMerkleDB`. Its `generateMerkleProofs` (76-92) is the one of
lib/database/merkle.go:92-108. Besides the sizes (which stay zero) the model keeps the entries that are computed, which the
program drops. `blockLen`, which is increased in every repetition, only determines capacities. -/
def randomMerkleDB (M : Host G) (d dbLen numRows blockLen nRepeat : Nat) : Res (List (Chunk × List Byte)) := do
  if 8 * blockLen = 0 then crash "integer divide by zero" else
  let numBlocks := dbLen / (8 * blockLen)
  let data ← orFatal (M.read d (numBlocks * blockLen))
  let blocks ← MerklePir.cutBlocks data numBlocks blockLen
  forLoop nRepeat (fun _ results => do
    let tree ← orFatal (Merkle.newUsing M.H 32 M.ck blocks)
    if numRows = 0 then crash "integer divide by zero" else
    let entries ← MerklePir.generateMerkleProofs M.ck tree blocks
    ok (results ++ [(⟨0, 0, 0⟩, entries)])) []

/-- simulations/simul.go:102-106: the amplification parameter of the three known lengths. -/
def tECC (dbLen : Nat) : Option Nat :=
  if dbLen = 8192 then some 3 else if dbLen = 8388608 then some 4 else if dbLen = 8589934592 then some 7 else none

/-- simulations/simul.go:122-125: the number of rows. -/
def nRows (s : Config) (dl : Nat) : Nat :=
  if s.numRows ≠ 1 then
    let (m, e) := Layout.sqrtF64 (Layout.increaseToNextSquare dl)
    m / 2 ^ e
  else s.numRows

/-- simulations/simul.go:110-174, one iteration on the `d`-th length; nothing for a length that is skipped. The database is
created as in lib/database/lwe.go:27-30 and lwe128.go:24-27 (`CreateRandomBinaryLWEWithLength`, `..128`): the layout is always
square. -/
def runLength (M : Host G) (s : Config) (d dl : Nat) : Res (Option (List Chunk)) := do
  if s.primitive = "cmp-vpir-dh" ∧ dl = 8589934592 then ok none
  else if s.primitive = "cmp-vpir-dh" then do
    let db ← Dh.createRandomEllipticWithDigest M.g M.blake2 M.cpus M.elementSize (M.read d) dl true
    let r ← pirElliptic M d db s.repetitions
    ok (some (r.map (·.1)))
  else if s.primitive = "cmp-vpir-lwe" then do
    let (numRows, numColumns) := Layout.calculateNumRowsAndColumns dl true
    let data ← M.read d (numRows * numColumns / 8 + 1)
    let db ← createRandomBinary lwe32 M.aesctr 1100 data numRows numColumns
    match tECC dl with
    | none => crash "tECC not defined for this db length"
    | some rep => do
      let r ← pirLWE M d db s.repetitions rep
      ok (some (r.map (·.1)))
  else if s.primitive = "cmp-vpir-lwe-128" then do
    let (numRows, numColumns) := Layout.calculateNumRowsAndColumns dl true
    let data ← M.read d (numRows * numColumns / 8 + 1)
    let db ← createRandomBinary lwe128 M.aesctr 4800 data numRows numColumns
    let r ← pirLWE128 M d db s.repetitions
    ok (some (r.map (·.1)))
  else if s.primitive = "preprocessing" then do
    let r ← randomMerkleDB M d dl (nRows s dl) s.blockLength s.repetitions
    ok (some (r.map (·.1)))
  else crash "unknown primitive type"

/-- simulations/simul.go:382-387 `validSimulation`. -/
def validSimulation (s : Config) : Bool :=
  s.primitive = "cmp-vpir-dh" || s.primitive = "cmp-vpir-lwe" || s.primitive = "cmp-vpir-lwe-128" ||
    s.primitive = "preprocessing"

/-- simulations/simul.go:49-203 `main`: the results by database length. -/
def main (M : Host G) (s : Config) : Res (List (Nat × List Chunk)) :=
  if validSimulation s = false then crash "invalid simulation" else
  forLoop s.dbBitLengths.length (fun d results => do
    let dl ← idx s.dbBitLengths d
    let r ← runLength M s d dl
    match r with
    | none => ok results
    | some chunks => ok (Pgp.mset results dl chunks)) []

end Verif.Local
