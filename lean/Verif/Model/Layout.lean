import Verif.Model.Database
import Mathlib.Data.Nat.Size
import Mathlib.Data.Nat.Sqrt

/-! # Model of the database layout computation

lib/database/db.go:167-177, lib/utils/utils.go:30-36 and the table size of lib/database/pgp.go:15,65. The code computes
with IEEE floating-point numbers; the model computes the same values with integers, rounding to nearest, ties to even,
as the hardware does. Arguments are lengths, hence not negative. -/

namespace Verif.Layout

/-- Rounding a natural number to `p` significant binary digits, to nearest, ties to even: conversion of an integer to a
floating-point number, and the rounding of an exact product whose exponent is in range. -/
def roundBits (p n : Nat) : Nat :=
  let s := n.size - p
  let q := n / 2 ^ s
  let r := n % 2 ^ s
  if 2 ^ s < 2 * r ∨ (2 * r = 2 ^ s ∧ q % 2 = 1) then (q + 1) * 2 ^ s else q * 2 ^ s

/-- lib/database/pgp.go:15,65: `int(float32(n) * 0.1)`; the `float32` constant 0.1 is 13421773 / 2^27. -/
def preSquareNumBlocks (n : Nat) : Nat := roundBits 24 (roundBits 24 n * 13421773) / 2 ^ 27

/-- `math.Sqrt(float64(n))` as a numerator `m` and an exponent `s`, the value being `m / 2^s`. The square root of a
number that fits in 53 bits is never halfway between two floating-point numbers unless it is one. -/
def sqrtF64 (n : Nat) : Nat × Nat :=
  let v := roundBits 53 n
  let s := 53 - (Nat.sqrt v).size
  let m := Nat.sqrt (v * 4 ^ s)
  (if m < v * 4 ^ s - m * m then m + 1 else m, s)

/-- lib/utils/utils.go:30-36 `IncreaseToNextSquare`. `math.Modf` splits the root into integral and fractional part.
`math.Pow(i+1, 2)` is the rounded square. -/
def increaseToNextSquare (num : Nat) : Nat :=
  let (m, s) := sqrtF64 num
  if m % 2 ^ s = 0 then num else roundBits 53 ((m / 2 ^ s + 1) * (m / 2 ^ s + 1))

/-- lib/database/db.go:167-177 `CalculateNumRowsAndColumns`: number of rows and of columns. -/
def calculateNumRowsAndColumns (numBlocks : Nat) (matrix : Bool) : Nat × Nat :=
  if matrix then
    let num := increaseToNextSquare numBlocks
    let (m, s) := sqrtF64 num
    (m / 2 ^ s, m / 2 ^ s)
  else (1, numBlocks)

end Verif.Layout
