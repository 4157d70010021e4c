import Verif.Spec.Point

/-! # Specification of what a point server answers -/

namespace Verif.Point.Spec
open Verif.Database

/-- The bytewise exclusive or of two strings of the same length. -/
def xorBytes (a b : List Byte) : List Byte := List.zipWith (· ^^^ ·) a b

/-- The exclusive or of the blocks of a row that are selected by the bits of `q`, starting with `n` zero bytes; block `0` of the
row is selected by bit `j`. Every block counts with zeros up to `n` bytes. -/
def rowSum (n : Nat) (q : List Byte) : Nat → List (List Byte) → List Byte
  | _, [] => List.replicate n 0
  | j, b :: row => if bitOf q j then xorBytes (zeroExtend n b) (rowSum n q (j + 1) row) else rowSum n q (j + 1) row

/-- The rows of a table with `c` columns. -/
def rowsOf {α : Type} (c : Nat) : Nat → List α → List (List α)
  | 0, _ => []
  | r + 1, l => l.take c :: rowsOf c r (l.drop c)

/-- The answer for the selection bits `q`: one sum for each row. -/
def tableSum (info : Info) (blocks : List (List Byte)) (q : List Byte) : List Byte :=
  ((rowsOf info.numColumns info.numRows blocks).map (rowSum info.blockSize q 0)).flatten

/-- There is a selection bit for every column. -/
def CoversColumns (info : Info) (q : List Byte) : Prop := info.numColumns ≤ 8 * q.length

end Verif.Point.Spec
