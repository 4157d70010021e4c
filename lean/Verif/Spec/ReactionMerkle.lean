import Verif.Spec.Reaction
import Verif.Spec.Merkle
import Verif.Spec.Point
import Verif.Model.MerklePir

/-! # Specification vocabulary for lying servers of Merkle-authenticated lookups -/

namespace Verif.MerklePir.Spec
open Res Verif.Database Verif.Merkle Verif.Merkle.Spec Verif.Point Verif.Point.Spec Verif.Reaction

/-- The exclusive or of two byte strings of equal length. -/
def xor (a b : List Byte) : List Byte := a.zipWith (· ^^^ ·) b

/-- What server `k` of `n` sees of a retrieval of index `i` when it answers by `F` and the others are honest: its message, and
how the client ends. `r` is the client's randomness. Not for two servers, which get keys of a distributed point function. -/
def view (H : List Byte → List Byte) (db : Bytes) (n k : Nat) (F : List Byte → Res (List Byte)) (i : Nat) (dpf : Dpf)
    (r : List Byte) : Res (List Byte × Res Unit) := do
  let (qs, st) ← query dpf (fun _ => ok r) db.info i n
  let q ← idx qs k
  let answers ← qs.mapM (answer dpf 0 db)
  ok (q, ending (do
    let f ← F q
    reconstructPIR H (answers.set k f) db.info st))

/-- The random strings with which server `k` sees `v`. -/
def Shows (H : List Byte → List Byte) (db : Bytes) (n k : Nat) (F : List Byte → Res (List Byte)) (i : Nat) (dpf : Dpf)
    (v : List Byte × Res Unit) (r : List Byte) : Prop :=
  r.length = (n - 1) * (db.info.numColumns / 8 + 1) ∧ view H db n k F i dpf r = ok v

/-- How the client that asks for stored block `i` ends when a server answers the message `q` by `F`: it checks the block,
changed by the requested row of the difference between the answer and the honest one. -/
def learned (H : List Byte → List Byte) (db : Bytes) (stored : List (List Byte)) (F : List Byte → Res (List Byte)) (i : Nat)
    (q : List Byte) : Res Unit :=
  ending (do
    let f ← F q
    let h ← answerVec db q
    checkBlock H db.info (xor (zeroExtend db.info.blockSize (stored.getD i []))
      (((xor f h).drop (i / db.info.numColumns * db.info.blockSize)).take db.info.blockSize)))

/-- The answers of the server have the length of honest ones. -/
def FullLength (db : Bytes) (F : List Byte → Res (List Byte)) : Prop :=
  ∀ q f, F q = ok f → f.length = db.info.numRows * db.info.blockSize

/-- The record with one bit of its first byte flipped. -/
def flipFirst : List Byte → List Byte
  | [] => []
  | b :: d => (b ^^^ 1) :: d

/-- A mask that flips one bit of the first byte of row `x`. -/
def rowMask (db : Bytes) (x : Nat) : List Byte :=
  (List.replicate (db.info.numRows * db.info.blockSize) 0).set (x * db.info.blockSize) 1

/-- The proof stored with a record of `len` bytes. -/
def storedProof (len proofLen : Nat) (stored : List Byte) : Res Proof :=
  decodeProof ((stored.drop len).take proofLen) []

/-- The strings hashed when the record `d` is checked with a proof: the record with its index, then the nodes of the path, from
the position lib/merkle/proof.go:66 starts with. -/
def hashed (H : List Byte → List Byte) (d : List Byte) (proof : Proof) : List (List Byte) :=
  (d ++ putLE32 proof.index) :: pathInputs H proof.hashes (H (d ++ putLE32 proof.index))
    ((proof.index.toNat + 2 ^ proof.hashes.length) % 2 ^ 32)

/-- Checking the record `d` and the record `d'` with one proof hashes no two different strings to one digest. -/
def NoClash (H : List Byte → List Byte) (d d' : List Byte) (proof : Proof) : Prop :=
  ∀ a ∈ hashed H d proof, ∀ b ∈ hashed H d' proof, H a = H b → a = b

end Verif.MerklePir.Spec
