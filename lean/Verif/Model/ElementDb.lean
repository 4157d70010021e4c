import Verif.Model.Database
import Verif.Model.Field

/-! # Model of lib/database/db.go: databases of random field elements, and of the empty databases of bytes.go -/

namespace Verif.Database
open Res

/-- lib/database/db.go:21-26 `DB`, the entries and the information used here (no `KeysInfo`, no auth). -/
structure ElementDb where
  entries : List U32
  info : Info
deriving DecidableEq, Repr

/-- `io.ReadFull` on a random source that still delivers `rest` (used at lib/database/db.go:106): all of the bytes
asked for or an error; the two error values of the library are told apart, a failing device is not modelled. -/
def readFull (rest : List Byte) (n : Nat) : Res (List Byte) :=
  if n ≤ rest.length then ok (rest.take n)
  else if rest = [] then err "EOF" else err "unexpected EOF"

/-- lib/database/db.go:106-108: the error of the source is returned with a prefix. -/
def readRandom (rest : List Byte) (n : Nat) : Res (List Byte) :=
  match readFull rest n with
  | ok b => ok b
  | err e => err ("failed to read random randBytes: " ++ e)
  | crash e => crash e

/-- lib/database/db.go:83-88 `NewBitsDB`. -/
def newBitsDB (info : Info) : ElementDb :=
  ⟨List.replicate (info.numRows * info.numColumns * info.blockSize) 0, info⟩

/-- lib/database/db.go:90-121 `CreateRandomBitsDB`; `rest` is what the random source delivers, `fresh` and `fuel` are the
system randomness of the conversion to field elements (Model/Field). The sizes are natural numbers (`int` in Go);
division by zero panics. -/
def createRandomBitsDB (fresh : Nat → U32) (fuel : Nat) (rest : List Byte) (dbLen numRows blockLen : Nat) :
    Res ElementDb := do
  if 8 * 4 * numRows * blockLen = 0 then crash "integer divide by zero" else
  let quotient := dbLen / (8 * 4 * numRows * blockLen)
  let numColumns := if quotient = 0 then 1 else quotient
  let info : Info := { numRows := numRows, numColumns := numColumns, blockSize := blockLen, blockLengths := [],
                       pirType := "", root := [], proofLen := 0 }
  let n := numRows * numColumns * blockLen
  let randBytes ← readRandom rest (n * 4 + 1)
  let db := newBitsDB info
  let (entries, _) ← Field.bytesToElements fresh fuel db.entries randBytes
  let blockLengths ← forLoop n (fun i bl => setAt bl (i / blockLen) blockLen)
    (List.replicate (numRows * numColumns) 0)
  ok ⟨entries, { info with blockLengths := blockLengths }⟩

/-- lib/database/bytes.go:15-27 `CreateZeroBytes`: the block lengths are left out, as in the code. -/
def createZeroBytes (numRows numColumns blockLen : Nat) : Bytes :=
  ⟨List.replicate (numRows * numColumns * blockLen) 0,
    { numRows := numRows, numColumns := numColumns, blockSize := blockLen, blockLengths := [], pirType := "",
      root := [], proofLen := 0 }⟩

end Verif.Database
