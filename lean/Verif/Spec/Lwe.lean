import Verif.Model.Lwe
import Verif.Spec.Matrix

/-! # Specification vocabulary for the LWE schemes: stored bits, accumulated noise, distances modulo `2^w` -/

namespace Verif.Lwe
open Verif.Matrix

/-- The bit stored in row `i`, column `j`. -/
def storedBit (m : Mat 8) (i j : Nat) : Nat := (m.entry i j).toNat

/-- Noise the honest answer accumulates in column `k`: the integer combination of the noise terms selected by the
column's ones. -/
def columnNoise (e : Nat → Int) (m : Mat 8) (rows k : Nat) : Int :=
  ∑ r ∈ Finset.range rows, e r * (storedBit m r k : Int)

/-- `x` is congruent modulo `2^w` to an integer of absolute value at most `d`. -/
def Within {w : Nat} (d : Int) (x : BitVec w) : Prop := ∃ y : Int, |y| ≤ d ∧ x = BitVec.ofInt w y

/-- The integer the 128-bit noise encoding stands for (lib/matrix/matrix128.go:80-85, C38). -/
def noise128 (g : Int) : Int := if 0 ≤ g then g else g - 1

/-- A database of zeros and ones whose recorded dimensions are those of its matrix. -/
structure Db.Valid {w : Nat} (db : Db w) : Prop where
  wf : db.matrix.WellFormed
  bin : db.matrix.Binary
  rows : db.matrix.rows = db.numRows
  cols : db.matrix.cols = db.numColumns

/-- The client uses parameters made for this database. -/
structure ParamsFor (p : Params) {w : Nat} (db : Db w) : Prop where
  l : p.l = db.numRows
  m : p.m = db.numColumns
  seed : p.seedA = seedMatrixA

end Verif.Lwe

namespace Verif.Lwe
open Verif.Matrix

/-- An honest setting: a bit database published with its digest, a client with matching parameters, sizes within the
range of the C kernels, and one noise sample per row, each as `GaussSample` returns it. -/
structure Setup {w : Nat} (S : Scheme w) (aesctr : List Byte → Nat → Byte) (p : Params) (db : Db w)
    (coins : Coins) : Prop where
  valid : db.Valid
  params : ParamsFor p db
  digest : digest S aesctr p.n db.matrix db.numRows = Res.ok db.digest
  fits : FitsInt p.n db.numRows db.numColumns
  noiseLen : coins.noise.length = db.numRows
  noise : ∀ g ∈ coins.noise, |g| ≤ 128

/-- Little-endian value of the first `k` bytes the client drew for the secret multiplier. -/
def multiplier (k : Nat) (coins : Coins) : Nat := ofLE (coins.tBytes.take k)

end Verif.Lwe
