import Verif.Model.Point

/-! # Specification vocabulary for point retrieval -/

namespace Verif.Point.Spec
open Res Verif.Database

/-- The database holds the given blocks in row-major order, each no longer than the block size (there may be unused
bytes at the end). -/
structure Stores (db : Bytes) (blocks : List (List Byte)) : Prop where
  count : blocks.length = db.info.numRows * db.info.numColumns
  entries : ∃ rest, db.entries = blocks.flatten ++ rest
  lengths : db.info.blockLengths = blocks.map List.length
  fits : ∀ b ∈ blocks, b.length ≤ db.info.blockSize

/-- A block followed by zeros up to `n` bytes. -/
def zeroExtend (n : Nat) (b : List Byte) : List Byte := b ++ List.replicate (n - b.length) 0

/-- Bit `j` of a byte string, least significant bit of each byte first. -/
def bitOf (q : List Byte) (j : Nat) : Bool := (q.getD (j / 8) 0).getLsbD (j % 8)

/-- The contract of a two-party DPF library: for a point in the domain the two keys expand to strings covering the
domain that differ exactly at the point. -/
def Correct (dpf : Dpf) : Prop :=
  ∀ α logN, logN ≤ 63 → α < 2 ^ logN → ∃ k0 k1 x0 x1, dpf.gen α logN = ok (k0, k1) ∧
    dpf.evalFull k0 logN = ok x0 ∧ dpf.evalFull k1 logN = ok x1 ∧
    2 ^ logN ≤ 8 * x0.length ∧ 2 ^ logN ≤ 8 * x1.length ∧
    ∀ j, j < 2 ^ logN → (bitOf x0 j ^^ bitOf x1 j) = decide (j = α)

end Verif.Point.Spec
