import Verif.Go

/-! # Model of lib/database/db.go, bytes.go: byte databases -/

namespace Verif.Database
open Res

/-- lib/database/db.go:35-46 `Info` and 70-73 `Merkle`, the fields used by the point schemes. `int` fields are
natural numbers: every constructor of the repository computes them from lengths. -/
structure Info where
  numRows : Nat
  numColumns : Nat
  blockSize : Nat
  blockLengths : List Nat
  pirType : String
  root : List Byte
  proofLen : Nat
deriving DecidableEq, Repr

/-- lib/database/bytes.go:8-11 `Bytes`. -/
structure Bytes where
  entries : List Byte
  info : Info
deriving DecidableEq, Repr

/-- lib/utils/utils.go:11-13 `VectorToMatrixIndices`. Go integer division truncates towards zero; dividing by zero
panics. -/
def vectorToMatrixIndices (i numColumns : Int) : Res (Int × Int) :=
  if numColumns = 0 then crash "integer divide by zero" else ok (i.tdiv numColumns, i.tmod numColumns)

/-- lib/database/bytes.go:49-70 `CreateRandomBytes`; `dbLen` is in bits and `read n` are the `n` bytes delivered by
the random source (a read error ends the program). Division by zero panics. -/
def createRandomBytes (read : Nat → Res (List Byte)) (dbLen numRows blockLen : Nat) : Res Bytes := do
  let entries ← read (dbLen / 8)
  if 8 * numRows * blockLen = 0 then crash "integer divide by zero" else
  let numColumns := dbLen / (8 * numRows * blockLen)
  let blockLens ← forLoop (numRows * numColumns) (fun i bl => setAt bl i blockLen)
    (List.replicate (numRows * numColumns) 0)
  ok ⟨entries, { numRows := numRows, numColumns := numColumns, blockSize := blockLen, blockLengths := blockLens,
                 pirType := "", root := [], proofLen := 0 }⟩

end Verif.Database
