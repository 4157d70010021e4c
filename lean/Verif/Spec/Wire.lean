import Verif.Model.Wire
import Verif.Spec.Point

/-! # Specification vocabulary for the transport -/

namespace Verif.Wire.Spec
open Res Verif.Database

/-- What was compressed can be recovered. -/
def Lossless (z : Gzip) : Prop := ∀ x, z.decompress (z.compress x) = some x

/-- One GiB. -/
def GiB : Nat := 2 ^ 30

/-- The message is at most 1 GiB, before and after compression. -/
def Fits (z : Gzip) (b : List Byte) : Prop := (marshal b).length ≤ GiB ∧ (z.compress (marshal b)).length ≤ GiB

/-- The compressor makes messages at most slightly longer (the gzip format adds 18 bytes and at most 5 bytes for every 2^14). -/
def Modest (z : Gzip) : Prop := ∀ x, (z.compress x).length ≤ x.length + x.length / 256 + 64

/-- Random strings with which somebody who watches all connections but `m` of a lookup of index `i` sees the sizes `v`. -/
def SeesBut (z : Gzip) (dpf : Point.Dpf) (db : Bytes) (n m i : Nat) (v : List (Nat × Nat)) (r : List Byte) : Prop :=
  r.length = (n - 1) * (db.info.numColumns / 8 + 1) ∧
    ∃ w, sizes z clientOptions dpf (fun _ => ok r) 0 db i n = ok w ∧ w.eraseIdx m = v

/-- Random strings with which somebody who watches all connections of a lookup of index `i` sees the sizes `v`. -/
def Sees (z : Gzip) (dpf : Point.Dpf) (db : Bytes) (n i : Nat) (v : List (Nat × Nat)) (r : List Byte) : Prop :=
  r.length = (n - 1) * (db.info.numColumns / 8 + 1) ∧ sizes z clientOptions dpf (fun _ => ok r) 0 db i n = ok v

/-- All blocks outside column `y` are zero. -/
def OnlyColumn (db : Bytes) (blocks : List (List Byte)) (y : Nat) : Prop :=
  ∀ j, j < blocks.length → j % db.info.numColumns ≠ y → ∀ b ∈ blocks.getD j [], b = 0

/-- Column `y` of the database: its blocks, each filled up with zeros, from the first row to the last. -/
def column (db : Bytes) (blocks : List (List Byte)) (y : Nat) : List Byte :=
  (List.range (db.info.numRows * db.info.blockSize)).map fun p =>
    (blocks.getD (p / db.info.blockSize * db.info.numColumns + y) []).getD (p % db.info.blockSize) 0

end Verif.Wire.Spec
