import Verif.Model.Parallel
import Verif.Model.Layout
import Mathlib.Algebra.Group.Defs
import Mathlib.Algebra.Group.Int.Defs

/-! # Model of the single-server retrieval scheme over a group

lib/database/elliptic.go, lib/server/dh.go, lib/client/dh.go. The group of the circl library is an additive commutative
group `G` with the library's encoding, decoding and hash to the group as parameters. Scalars are integers: the library
reduces them modulo the group order, which does not change the multiples. -/

namespace Verif.Dh
open Res Verif.Database Verif.Layout Verif.Parallel

variable {G : Type} [AddCommGroup G] [DecidableEq G]

/-- circl `group.Group`, the operations the code uses besides those of the group: `MarshalBinaryCompress` (which does
not fail), `UnmarshalBinary` and `HashToElement` (with no domain separation tag). -/
structure Grp (G : Type) where
  enc : G → List Byte
  dec : List Byte → Res G
  hashTo : List Byte → G

/-- lib/database/db.go:35-67 `Info` and `Auth`, the fields used by this scheme. -/
structure Info where
  numRows : Nat
  numColumns : Nat
  elementSize : Nat
  digest : List Byte
  subDigests : List Byte
deriving DecidableEq, Repr

/-- lib/database/elliptic.go:15-18 `Elliptic`. -/
structure Elliptic where
  entries : List Byte
  info : Info
deriving DecidableEq, Repr

/-- lib/database/elliptic.go:94-99 `HashIndexToGroup`. -/
def hashIndexToGroup (g : Grp G) (j : Nat) : G := g.hashTo (leBytes 8 j)

/-- lib/database/elliptic.go:102-106 `CommitScalarToIndex`. -/
def commitScalarToIndex (g : Grp G) (x : Int) (j : Nat) : G := x • hashIndexToGroup g j

/-- lib/database/elliptic.go:109-119 `MarshalGroupElements`. -/
def marshalGroupElements (g : Grp G) (q : List G) : List Byte :=
  q.foldl (fun encoded el => encoded ++ g.enc el) []

/-- lib/database/elliptic.go:122-134 `UnmarshalGroupElements`; the loop index is `i * elemSize`. The capacity of `q` is
taken to be its length, so that a last chunk that is too short panics. -/
def unmarshalGroupElements (g : Grp G) (q : List Byte) (elemSize : Nat) : Res (List G) :=
  if elemSize = 0 then crash "integer divide by zero" else
  forLoop ((q.length + elemSize - 1) / elemSize) (fun i decoded => do
    let b ← slice q (i * elemSize) (i * elemSize + elemSize)
    let elem ← g.dec b
    ok (decoded ++ [elem])) []

/-- lib/database/elliptic.go:75-91 `computeDigests`; a negative capacity panics. -/
def computeDigests (g : Grp G) (begin_ end_ : Nat) (data : List Byte) (rowLen : Nat) : Res (List Byte) :=
  if end_ < begin_ then crash "makeslice: cap out of range" else
  forLoop (end_ - begin_) (fun k digs => do
    let d ← forLoop rowLen (fun j d => do
      let b ← idx data ((begin_ + k) * rowLen + j)
      ok (if b = 1 then d + hashIndexToGroup g j else d)) 0
    ok (digs ++ g.enc d)) []

/-- `int(math.Ceil(float64(a) / float64(b)))`, the exact ceiling (C100 shows that the
floating-point evaluation gives the same). -/
def ceilDiv (a b : Nat) : Nat := (a + b - 1) / b

/-- Rows of goroutine `i`, elliptic.go:40-44 and dh.go:34-38. -/
def chunkBounds (numRows rowsPerRoutine i : Nat) : Nat × Nat :=
  (i * rowsPerRoutine, if numRows < (i + 1) * rowsPerRoutine then numRows else (i + 1) * rowsPerRoutine)

/-- lib/database/elliptic.go:36-54: the row digests, computed by `n` goroutines (at least one). -/
def rowDigests (g : Grp G) (n numRows numColumns : Nat) (data : List Byte) : Res (List Byte) := do
  let chunks ← gather n (fun i =>
    computeDigests g (chunkBounds numRows (ceilDiv numRows n) i).1 (chunkBounds numRows (ceilDiv numRows n) i).2
      data numColumns)
  ok chunks.flatten

/-- lib/database/elliptic.go:20-73 `CreateRandomEllipticWithDigest`. `H` is BLAKE2b-256, `cpus` is `runtime.NumCPU()`,
`elementSize` the length found by `getGroupElementSize`, `read n` the random bytes. -/
def createRandomEllipticWithDigest (g : Grp G) (H : List Byte → List Byte) (cpus elementSize : Nat)
    (read : Nat → Res (List Byte)) (dbLen : Nat) (rebalanced : Bool) : Res Elliptic := do
  let (numRows, numColumns) := calculateNumRowsAndColumns dbLen rebalanced
  let data ← read (numRows * numColumns)
  let data := data.map (fun b => b &&& 1)
  let digests ← rowDigests g (if dbLen ≤ 1024 * 1024 then 8 else cpus) numRows numColumns data
  ok ⟨data, { numRows := numRows, numColumns := numColumns, elementSize := elementSize, digest := H digests,
              subDigests := digests }⟩

/-- lib/server/dh.go:60-74 `processRows`; a negative length panics. -/
def processRows (db : Elliptic) (begin_ end_ : Nat) (input : List G) : Res (List G) :=
  if end_ < begin_ then crash "makeslice: len out of range" else
  forLoop (end_ - begin_) (fun k prods => do
    let p ← forLoop db.info.numColumns (fun j p => do
      let b ← idx db.entries ((begin_ + k) * db.info.numColumns + j)
      if b = 1 then do
        let q ← idx input j
        ok (p + q)
      else ok p) 0
    ok (prods ++ [p])) []

/-- lib/server/dh.go:19-58 `AnswerBytes`. The number of goroutines is one (none if there is no row). -/
def answerBytes (g : Grp G) (db : Elliptic) (q : List Byte) : Res (List Byte) := do
  let query ← unmarshalGroupElements g q db.info.elementSize
  let n := if db.info.numRows < 1 then db.info.numRows else 1
  let chunks ← gather n (fun i =>
    processRows db (chunkBounds db.info.numRows (ceilDiv db.info.numRows n) i).1
      (chunkBounds db.info.numRows (ceilDiv db.info.numRows n) i).2 query)
  ok (marshalGroupElements g chunks.flatten)

/-- lib/client/dh.go:23-35 `NewDH`: the check of the digests. -/
def newDH (H : List Byte → List Byte) (info : Info) : Res Info :=
  if H info.subDigests ≠ info.digest then crash "row digests and the global digest in the info do not match"
  else ok info

/-- lib/client/client.go:21-33 `state`, the fields of this scheme. -/
structure State (G : Type) where
  ix : Int
  iy : Int
  r : Int
  ht : G

/-- lib/client/dh.go:39-70 `QueryBytes`; `r` and `t` are the random scalars drawn. -/
def queryBytes (g : Grp G) (info : Info) (r t : Int) (index : Int) : Res (List Byte × State G) := do
  let (ix, iy) ← vectorToMatrixIndices index info.numColumns
  let query := (List.range info.numColumns).map (fun j => commitScalarToIndex g r j)
  let ht := commitScalarToIndex g t (iy % 2 ^ 64).toNat
  if iy < 0 then crash "index out of range" else
  let q ← idx query iy.toNat
  let query ← setAt query iy.toNat (q + ht)
  ok (marshalGroupElements g query, ⟨ix, iy, r, ht⟩)

/-- lib/client/dh.go:72-108 `ReconstructBytes`. -/
def reconstructBytes (g : Grp G) (info : Info) (st : State G) (a : List Byte) : Res Byte := do
  let answer ← unmarshalGroupElements g a info.elementSize
  forLoop info.numRows (fun i res => do
    let b ← slice info.subDigests (i * info.elementSize) ((i + 1) * info.elementSize)
    let d ← g.dec b
    let ai ← idx answer i
    let m := (-st.r) • d + ai
    if m ≠ 0 ∧ m ≠ st.ht then err "reject" else
    if (i : Int) = st.ix then
      ok (if m = 0 then 0 else 1)
    else ok res) 0

end Verif.Dh
