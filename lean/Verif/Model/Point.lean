import Verif.Model.Database

/-! # Model of the multi-server point scheme

lib/client/pir_point.go, lib/client/client.go (value reconstruction) and lib/server/point.go.
The two-party DPF library (github.com/dkales/dpf-go) is a parameter. Indices are `Int`, as the client API takes
arbitrary Go integers. -/

namespace Verif.Point
open Res Verif.Database

/-- The DPF library: `gen alpha logN` and `evalFull key logN`. The library draws its own randomness; a theorem that
holds for every `Dpf` covers all of it. -/
structure Dpf where
  gen : Nat → Nat → Res (List Byte × List Byte)
  evalFull : List Byte → Nat → Res (List Byte)

/-- Go's `math/bits.Len`. -/
def bitsLen (n : Nat) : Nat := if n = 0 then 0 else n.log2 + 1

/-- lib/client/client.go:21-24 `state`, the fields used by the point scheme. -/
structure State where
  ix : Int
  iy : Int
deriving DecidableEq, Repr

/-- lib/client/client.go:90-92 `invalidQueryInputsIT`. -/
def invalidQueryInputsIT (index numServers : Int) : Bool := decide (index < 0) && decide (numServers < 2)

/-- Conversion `uint64(x)` of a Go `int`. -/
def toU64 (x : Int) : Nat := (x % 2 ^ 64).toNat

/-- lib/client/pir_point.go:80-110 `secretShare`. `read n` are the `n` bytes the client's random source delivers
(an error makes line 64 end the program). -/
def secretShare (read : Nat → Res (List Byte)) (numColumns : Nat) (iy : Int) (numServers : Int) :
    Res (List (List Byte)) := do
  -- line 83
  let vectorLen := numColumns / 8 + 1
  -- lines 86-89, 93: a negative length panics in make
  if numServers < 1 then crash "makeslice: len out of range" else
  let n := numServers.toNat
  let vectors := List.replicate n (List.replicate vectorLen (0 : Byte))
  -- lines 93-96
  let rand ← read ((n - 1) * vectorLen)
  -- lines 101-103
  let index := iy.tdiv 8
  if iy.tmod 8 < 0 then crash "negative shift amount" else
  let value : Byte := BitVec.ofNat 8 (1 <<< (iy.tmod 8).toNat)
  if index < 0 then crash "index out of range" else
  let last ← idx vectors (n - 1)
  let last ← setAt last index.toNat value
  let vectors ← setAt vectors (n - 1) last
  -- lines 104-107
  forLoop (n - 1) (fun k vs => do
    let chunk ← slice rand (k * vectorLen) ((k + 1) * vectorLen)
    let vk ← idx vs k
    let vk ← copyAt vk 0 chunk
    let vs ← setAt vs k vk
    let last ← idx vs (n - 1)
    setAt vs (n - 1) (fastxor last last vk)) vectors

/-- lib/client/pir_point.go:46-68 `Query`. -/
def query (dpf : Dpf) (read : Nat → Res (List Byte)) (info : Info) (index numServers : Int) :
    Res (List (List Byte) × State) := do
  if invalidQueryInputsIT index numServers then crash "invalid query inputs" else
  let (ix, iy) ← vectorToMatrixIndices index info.numColumns
  if numServers = 2 then do
    let (k0, k1) ← dpf.gen (toU64 iy) (bitsLen info.numColumns)
    ok ([k0, k1], ⟨ix, iy⟩)
  else do
    let vectors ← secretShare read info.numColumns iy numServers
    ok (vectors, ⟨ix, iy⟩)

/-- lib/client/pir_point.go:38-41 `QueryBytes`. -/
def queryBytes (dpf : Dpf) (read : Nat → Res (List Byte)) (info : Info) (inp : List Byte) (numServers : Int) :
    Res (List (List Byte) × State) := do
  let i ← getBE32 inp
  query dpf read info i.toNat numServers

/-- lib/server/point.go:82-90 `xorValues`; returns the new contents of `out`. -/
def xorValues (entries : List Byte) (blockLens : List Nat) (q out : List Byte) : Res (List Byte) := do
  let (_, out) ← forLoop blockLens.length (fun j (st : Nat × List Byte) => do
    let (pos, out) := st
    let qb ← idx q (j / 8)
    let bl ← idx blockLens j
    let out ← if (qb >>> (j % 8)) &&& 1 = 1 then do
        let e ← slice entries pos (pos + bl)
        ok (fastxor out out e)
      else ok out
    ok (pos + bl, out)) (0, out)
  ok out

/-- lib/server/point.go:64-78, the loop of `Answer` over the rows for the selection string `q`. -/
def answerVec (db : Bytes) (q : List Byte) : Res (List Byte) := do
  let nRows := db.info.numRows
  let nCols := db.info.numColumns
  let (_, _, out) ← forLoop nRows (fun i (st : Nat × Nat × List Byte) => do
    let (prevPos, nextPos, out) := st
    let nextPos ← forLoop nCols (fun j np => do
      let l ← idx db.info.blockLengths (i * nCols + j)
      ok (np + l)) nextPos
    let es ← slice db.entries prevPos nextPos
    let bls ← slice db.info.blockLengths (i * nCols) ((i + 1) * nCols)
    let o ← slice out (i * db.info.blockSize) ((i + 1) * db.info.blockSize)
    let o ← xorValues es bls q o
    let out ← copyAt out (i * db.info.blockSize) o
    ok (nextPos, nextPos, out)) (0, 0, List.replicate (nRows * db.info.blockSize) 0)
  ok out

/-- lib/server/point.go:55-79 `Answer`; `numServers` is 2 for servers made by `NewPIRTwo` and 0 for servers made by
`NewPIR` (lines 27-42). -/
def answer (dpf : Dpf) (numServers : Nat) (db : Bytes) (q : List Byte) : Res (List Byte) :=
  if numServers = 2 then dpf.evalFull q (bitsLen db.info.numColumns) >>= answerVec db else answerVec db q

/-- `l[a:b]` with Go integers: negative bounds panic. -/
def sliceInt {α : Type _} (l : List α) (a b : Int) : Res (List α) :=
  if a < 0 ∨ b < 0 then crash "slice bounds out of range" else slice l a.toNat b.toNat

/-- lib/client/client.go:78-87 `reconstructValuePIR`. -/
def reconstructValue (answers : List (List Byte)) (info : Info) (st : State) : Res (List Byte) :=
  let bs := info.blockSize
  answers.foldlM (fun sum a => do
    let s ← sliceInt a (st.ix * bs) (bs * (st.ix + 1))
    ok (fastxor sum sum s)) (List.replicate bs 0)

/-- The deployed exchange: the client queries `n` servers, the `k`-th vector goes to the `k`-th server, every server
answers, and the client reconstructs the block value. `mode` is the `numServers` field of the servers. -/
def retrieve (dpf : Dpf) (read : Nat → Res (List Byte)) (mode : Nat) (db : Bytes) (index numServers : Int) :
    Res (List Byte) := do
  let (qs, st) ← query dpf read db.info index numServers
  let answers ← qs.mapM (answer dpf mode db)
  reconstructValue answers db.info st

end Verif.Point
