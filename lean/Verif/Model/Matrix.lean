import Verif.Model.Encoding
import Verif.Model.Rand
import Mathlib.Data.Rat.Defs

/-! # Model of lib/matrix (matrix.go, matrix128.go, matrixBytes.go, matrix.c), the sampler of
lib/utils/gauss.go and the parameters of lib/utils/lwe.go

Not modelled: the sizes Go's allocator refuses (`make` of more memory than is available) and the wrap of the 64-bit
product `r*c`. -/

namespace Verif.Matrix
open Res Verif.Utils

/-- lib/matrix/matrix.go:17-21 `Matrix` (`w = 32`), lib/matrix/matrix128.go:17-21 `Matrix128` (`w = 128`) and
lib/matrix/matrixBytes.go:3-7 `MatrixBytes` (`w = 8`). -/
structure Mat (w : Nat) where
  rows : Nat
  cols : Nat
  data : List (BitVec w)
deriving DecidableEq, Repr

/-- lib/matrix/matrix.go:23-29 `New`, matrix128.go:23-29 `New128`, matrixBytes.go:9-15 `NewBytes`. -/
def new (w r c : Nat) : Mat w := ⟨r, c, List.replicate (r * c) 0⟩

/-- lib/matrix/matrix.go:130-132 `Set`, matrix128.go:91-93 `Set`. -/
def Mat.set {w : Nat} (m : Mat w) (r c : Nat) (v : BitVec w) : Res (Mat w) := do
  let d ← setAt m.data (m.cols * r + c) v
  ok { m with data := d }

/-- lib/matrix/matrix.go:134-136 `Get`, matrix128.go:95-97 `Get`, matrixBytes.go:29-31 `Get`. -/
def Mat.get {w : Nat} (m : Mat w) (r c : Nat) : Res (BitVec w) := idx m.data (m.cols * r + c)

/-! ### C kernels -/

/-- Conversion `C.int(n)` of a Go `int`, as a loop bound: a negative result runs the loop zero times. -/
def cInt (n : Nat) : Nat := (BitVec.ofNat 32 n).toInt.toNat

/-- The `int` expression `n*i+j` of lib/matrix/matrix.c: signed overflow is undefined. -/
def cIdx (n i j : Nat) : Res Nat :=
  if n * i + j < 2 ^ 31 then ok (n * i + j) else crash "undefined behaviour: integer overflow"

/-- Reading `p[i]` in C: outside the array the behaviour is undefined. -/
def cRead {α : Type} (p : List α) (i : Nat) : Res α :=
  match p[i]? with
  | some a => ok a
  | none => crash "undefined behaviour: read out of bounds"

/-- Writing `p[i]` in C. -/
def cWrite {α : Type} (p : List α) (i : Nat) (a : α) : Res (List α) :=
  if i < p.length then ok (p.set i a) else crash "undefined behaviour: write out of bounds"

/-- The statement in the innermost loop of lib/matrix/matrix.c:8, 19, 30, 41; `op` is the product of two entries. -/
def cBody {w v : Nat} (op : BitVec w → BitVec v → BitVec w) (aCols bCols : Nat)
    (a : List (BitVec w)) (b : List (BitVec v)) (i k j : Nat) (out : List (BitVec w)) :
    Res (List (BitVec w)) := do
  let o ← cIdx bCols i j
  let p ← cIdx aCols i k
  let q ← cIdx bCols k j
  let x ← cRead a p
  let y ← cRead b q
  let z ← cRead out o
  cWrite out o (z + op x y)

/-- The loops of lib/matrix/matrix.c:3-12, 14-23, 25-34 and 36-45. -/
def cKernel {w v : Nat} (op : BitVec w → BitVec v → BitVec w) (aRows aCols bCols : Nat)
    (a : List (BitVec w)) (b : List (BitVec v)) (out : List (BitVec w)) : Res (List (BitVec w)) :=
  forLoop (cInt aRows) (fun i out =>
    forLoop (cInt aCols) (fun k out =>
      forLoop (cInt bCols) (fun j out => cBody op aCols bCols a b i k j out) out) out) out

/-- lib/matrix/matrix.c:8, 30: `a[..] * b[..]`. -/
def mulOp {w : Nat} (x y : BitVec w) : BitVec w := x * y

/-- lib/matrix/matrix.c:19, 41: `a[..] & -b[..]`; the byte is promoted to `int`, negated, and converted to the
unsigned type of `a`. -/
def andOp {w : Nat} (x : BitVec w) (y : Byte) : BitVec w := x &&& -(y.setWidth w)

/-- lib/matrix/matrix.go:150-184 `BinaryMul`, `Mul` (32-bit): the kernel runs directly on the Go slices, whose
length is not compared with the dimensions. -/
def mulGo {w v : Nat} (op : BitVec w → BitVec v → BitVec w) (a : Mat w) (b : Mat v) : Res (Mat w) :=
  if a.cols ≠ b.rows then crash "Dimension mismatch" else do
  let out := new w a.rows b.cols
  let _ ← idx a.data 0
  let _ ← idx b.data 0
  let _ ← idx out.data 0
  let d ← cKernel op a.rows a.cols b.cols a.data b.data out.data
  ok { out with data := d }

/-- lib/matrix/matrix.go:173-184 `Mul`. -/
def mul (a b : Mat 32) : Res (Mat 32) := mulGo mulOp a b

/-- lib/matrix/matrix.go:150-171 `BinaryMul`. -/
def binaryMul (a : Mat 32) (b : Mat 8) : Res (Mat 32) := mulGo andOp a b

/-- lib/matrix/matrix128.go:112-115, 139-147: the entries are copied to a zeroed array of `rows*cols` cells.
`PutBytes` and the read of a `__uint128_t` by C are inverse (both little-endian), so cells are modelled instead of
their 16 bytes. -/
def pack {w : Nat} (m : Mat w) : Res (List (BitVec w)) :=
  forLoop m.data.length (fun i cells => do
    let x ← idx m.data i
    setAt cells i x) (List.replicate (m.rows * m.cols) 0)

/-- lib/matrix/matrix128.go:134-163 `Mul128`. -/
def mul128 (a b : Mat 128) : Res (Mat 128) :=
  if a.cols ≠ b.rows then crash "Dimension mismatch" else do
  let aa ← pack a
  let bb ← pack b
  let oo := List.replicate (a.rows * b.cols) (0 : BitVec 128)
  let _ ← slice aa 0 1
  let _ ← slice bb 0 1
  let _ ← slice oo 0 1
  let d ← cKernel mulOp a.rows a.cols b.cols aa bb oo
  ok ⟨a.rows, b.cols, d⟩

/-- lib/matrix/matrix128.go:107-132 `BinaryMul128`. -/
def binaryMul128 (a : Mat 128) (b : Mat 8) : Res (Mat 128) :=
  if a.cols ≠ b.rows then crash "Dimension mismatch" else do
  let aa ← pack a
  let oo := List.replicate (a.rows * b.cols) (0 : BitVec 128)
  let _ ← slice aa 0 1
  let _ ← idx b.data 0
  let _ ← slice oo 0 1
  let d ← cKernel andOp a.rows a.cols b.cols aa b.data oo
  ok ⟨a.rows, b.cols, d⟩

/-- lib/matrix/matrix.go:186-194 `Add`, matrix128.go:165-173 `Add`. -/
def Mat.add {w : Nat} (a b : Mat w) : Res (Mat w) :=
  if a.cols ≠ b.cols ∨ a.rows ≠ b.rows then crash "Dimension mismatch" else do
  let d ← forLoop a.data.length (fun i d => do
    let x ← idx d i
    let y ← idx b.data i
    setAt d i (x + y)) a.data
  ok { a with data := d }

/-- lib/matrix/matrix.go:196-204 `Sub`, matrix128.go:175-183 `Sub`. -/
def Mat.sub {w : Nat} (a b : Mat w) : Res (Mat w) :=
  if a.cols ≠ b.cols ∨ a.rows ≠ b.rows then crash "Dimension mismatch" else do
  let d ← forLoop a.data.length (fun i d => do
    let x ← idx d i
    let y ← idx b.data i
    setAt d i (x - y)) a.data
  ok { a with data := d }

/-! ### Wire formats -/

/-- lib/matrix/matrix.go:39-48 `MatrixToBytes`; `uint32(in.rows)` keeps the low 32 bits. -/
def matrixToBytes (m : Mat 32) : Res (List Byte) := do
  let params := putBE32 (BitVec.ofNat 32 m.rows) ++ putBE32 (BitVec.ofNat 32 m.cols)
  let d ← uint32SliceToByteSlice m.data
  ok (params ++ d)

/-- lib/matrix/matrix.go:50-62 `BytesToMatrix`. -/
def bytesToMatrix (inp : List Byte) : Res (Mat 32) := do
  let r ← slice inp 0 4
  let rows ← getBE32 r
  let c ← slice inp 4 8
  let cols ← getBE32 c
  let rest ← slice inp 8 inp.length
  let data ← byteSliceToUint32Slice rest
  ok ⟨rows.toNat, cols.toNat, data⟩

/-- lib/matrix/matrix.go:64-84 `MatricesToBytes`. -/
def matricesToBytes (ms : List (Mat 32)) : Res (List Byte) := do
  let m0 ← idx ms 0
  let b ← matrixToBytes m0
  let out := List.replicate (4 + b.length * ms.length) (0 : Byte)
  let out ← copyAt out 0 (putBE32 (BitVec.ofNat 32 b.length))
  let out ← copyAt out 4 b
  forLoop (ms.length - 1) (fun i out => do
    let m ← idx ms (i + 1)
    if m0.rows ≠ m.rows ∨ m0.cols ≠ m.cols then crash "dimension mismatch" else
    let c ← matrixToBytes m
    copyAt out (4 + b.length * (i + 1)) c) out

/-- lib/matrix/matrix.go:86-100 `BytesToMatrices`; `/` truncates towards zero and `uint32(_)` keeps the low 32 bits.
The loop fills `out` in order. -/
def bytesToMatrices (inp : List Byte) : Res (List (Mat 32)) := do
  let h ← slice inp 0 4
  let length ← getBE32 h
  let length := length.toNat
  if length = 0 then crash "integer divide by zero" else
  let n := ((inp.length - 4) / length) % 2 ^ 32
  forLoop n (fun i out => do
    let s ← slice inp (4 + i * length) (4 + (i + 1) * length)
    let m ← bytesToMatrix s
    ok (out ++ [m])) []

/-- lib/matrix/matrix128.go:31-44 `Matrix128ToBytes`. `PutBytes` writes 16 little-endian bytes. -/
def matrix128ToBytes (m : Mat 128) : Res (List Byte) := do
  let params := putBE32 (BitVec.ofNat 32 m.rows) ++ putBE32 (BitVec.ofNat 32 m.cols)
  let out := List.replicate (m.data.length * 16) (0 : Byte)
  let out ← forLoop m.data.length (fun i out => do
    let x ← idx m.data i
    let _window ← slice out (i * 16) ((i + 1) * 16)
    copyAt out (i * 16) (leBytes 16 x.toNat)) out
  ok (params ++ out)

/-- `uint128.FromBytes(b)`: the first 16 bytes, little-endian; panics on shorter input. -/
def fromBytes128 (b : List Byte) : Res U128 :=
  if 16 ≤ b.length then ok (BitVec.ofNat 128 (ofLE (b.take 16))) else crash "index out of range"

/-- lib/matrix/matrix128.go:46-59 `BytesToMatrix128`. -/
def bytesToMatrix128 (inp : List Byte) : Res (Mat 128) := do
  let r ← slice inp 0 4
  let rows ← getBE32 r
  let c ← slice inp 4 inp.length
  let cols ← getBE32 c
  let rest ← slice inp 8 inp.length
  let data ← forLoop (rest.length / 16) (fun i data => do
    let s ← slice inp (8 + i * 16) inp.length
    let x ← fromBytes128 s
    setAt data i x) (List.replicate (rest.length / 16) 0)
  ok ⟨rows.toNat, cols.toNat, data⟩

/-! ### Random and noise matrices -/

/-- lib/matrix/matrix.go:102-115 `NewRandom` (`k = 4`) and matrix128.go:61-75 `NewRandom128` (`k = 16`): the matrix
made of the `k*r*c` bytes `b` the reader delivered, little-endian words in row order. In the 32-bit version the
slice header is reinterpreted without dividing its length by four, so `Len()` reports four times too many entries
(the excess lies outside the allocation); only the first `r*c` entries are modelled. -/
def ofRandom (w k r c : Nat) (b : List Byte) : Mat w :=
  ⟨r, c, (List.range (r * c)).map (fun i => BitVec.ofNat w (ofLE ((b.drop (k * i)).take k)))⟩

/-- `rnd.Read(b)` on a zeroed buffer for a fresh `utils.NewPRG(seed)` (lib/utils/rand.go:71-85, 101-110), then
`ofRandom`: the matrix derived from a public seed (lib/client/lwe.go:45, lwe128.go:46, lib/database/lwe.go:20-24,
lwe128.go:79-83). -/
def seedMatrix (aesctr : List Byte → Nat → Byte) (w k : Nat) (seed : List Byte) (r c : Nat) : Mat w :=
  ofRandom w k r c (Rand.Prg.read (Rand.newPRG aesctr seed) (List.replicate (k * r * c) 0)).1

/-- lib/utils/gauss.go:5-25 `cdf_table`. The entries are the decimal constants of the source, not their rounding to
`float64`. -/
def cdfTable : List ℚ := [
  0.5, 0.987867, 0.952345, 0.895957, 0.822578, 0.736994, 0.644389, 0.549831, 0.457833, 0.372034, 0.295023,
  0.22831, 0.172422, 0.127074, 0.0913938, 0.0641467, 0.0439369, 0.0293685, 0.0191572, 0.0121949, 0.00757568,
  0.00459264, 0.00271706, 0.00156868, 0.000883826, 0.000485955, 0.000260749, 0.000136536, 6.97696e-05,
  3.47923e-05, 1.69316e-05, 8.041e-06, 3.72665e-06, 1.68549e-06, 7.43923e-07, 3.20426e-07, 1.34687e-07,
  5.52484e-08, 2.21163e-08, 8.63973e-09, 3.29371e-09, 1.22537e-09, 4.44886e-10, 1.57625e-10, 5.45004e-11,
  1.83896e-11, 6.05535e-12, 1.94583e-12, 6.10194e-13, 1.86736e-13, 5.57679e-14, 1.62532e-14, 4.62263e-15,
  1.28303e-15, 3.47522e-16, 9.18597e-17, 2.36954e-17, 5.96487e-18, 1.46533e-18, 3.5129e-19, 8.21851e-20,
  1.87637e-20, 4.18062e-21, 9.08991e-22, 1.92875e-22, 3.99383e-23, 8.07049e-24, 1.5915e-24, 3.06275e-25,
  5.75194e-26, 1.05418e-26, 1.88542e-27, 3.29081e-28, 5.60522e-29, 9.31708e-30, 1.51135e-30, 2.39247e-31,
  3.69594e-32, 5.57187e-33, 8.19735e-34, 1.17691e-34, 1.64896e-35, 2.25463e-36, 3.00841e-37, 3.91737e-38,
  4.97795e-39, 6.1731e-40, 7.47055e-41, 8.82266e-42, 1.01682e-42, 1.14363e-43, 1.25523e-44, 1.34449e-45,
  1.40537e-46, 1.43357e-47, 1.42708e-48, 1.38634e-49, 1.31429e-50, 1.21593e-51, 1.0978e-52, 9.67246e-54,
  8.31661e-55, 6.97835e-56, 5.71421e-57, 4.56622e-58, 3.56086e-59, 2.70987e-60, 2.01252e-61, 1.45858e-62,
  1.03161e-63, 7.12032e-65, 4.79601e-66, 3.15252e-67, 2.02224e-68, 1.26591e-69, 7.73344e-71, 4.6104e-72,
  2.68226e-73, 1.52287e-74, 8.4376e-76, 4.56219e-77, 2.40727e-78, 1.23958e-79, 6.22901e-81, 3.05465e-82,
  1.46185e-83, 6.82713e-85, 3.11152e-86, 1.3839e-87]

/-- lib/utils/gauss.go:30-49 `GaussSample`. `draws` are the successive results of `mrand.Intn(len(cdf_table))` and
`mrand.Float64()` (a rational), `coin` that of `mrand.Uint64()`; `none`: the draws ran out before one was accepted. -/
def gaussSample (draws : List (Nat × ℚ)) (coin : Nat) : Res (Option Int) :=
  match draws with
  | [] => ok none
  | (x, y) :: rest => do
    let p ← idx cdfTable x
    if y < p then ok (some (if coin % 2 = 0 then -(x : Int) else x))
    else gaussSample rest coin

/-- lib/matrix/matrix.go:120 `uint32(GaussSample())`. -/
def gauss32 (g : Int) : U32 := BitVec.ofInt 32 g

/-- lib/matrix/matrix128.go:80-85: `uint128.Max.Sub64(v)` is `2^128-1-v` (it would panic on underflow, which
`v < 2^64` excludes). -/
def gauss128 (g : Int) : U128 :=
  if 0 ≤ g then BitVec.ofNat 128 g.toNat
  else BitVec.ofNat 128 (2 ^ 128 - 1 - (-g).toNat)

/-- lib/matrix/matrix.go:117-124 `NewGauss` and matrix128.go:77-89 `NewGauss128` for the samples `gs` (one per
cell, in order); `enc` is `gauss32` or `gauss128`. -/
def newGauss {w : Nat} (enc : Int → BitVec w) (r c : Nat) (gs : List Int) : Res (Mat w) := do
  let m := new w r c
  let d ← forLoop m.data.length (fun i d => do
    let g ← idx gs i
    setAt d i (enc g)) m.data
  ok { m with data := d }

/-! ### Parameters -/

/-- lib/utils/lwe.go:11-22 `ParamsLWE` (the plaintext modulus and `Sigma` are only used below). -/
structure Params where
  n : Nat
  l : Nat
  m : Nat
  b : U32
  seedA : List Byte
  bytesMod : Nat
deriving DecidableEq, Repr

/-- lib/utils/lwe.go:8-9 `SeedMatrixA`. -/
def seedMatrixA : List Byte := [19, 177, 222, 148, 155, 239, 159, 227, 155, 99, 246, 214, 220, 162, 30, 66]

/-- lib/utils/lwe.go:65-68 `computeB`; `Sigma` is the constant 6.4 (line 28), whose ceiling is 7. -/
def computeB (rows : Nat) : U32 := BitVec.ofNat 32 (rows * 12 * 7)

/-- lib/utils/lwe.go:24-41 `ParamsDefault`, `ParamsWithDatabaseSize`. -/
def paramsWithDatabaseSize (rows columns : Nat) : Params :=
  ⟨1100, rows, columns, computeB rows, seedMatrixA, 4⟩

/-- lib/utils/lwe.go:48-63 `ParamsDefault128`, `ParamsWithDatabaseSize128`. -/
def paramsWithDatabaseSize128 (rows columns : Nat) : Params :=
  ⟨4800, rows, columns, computeB rows, seedMatrixA, 16⟩

end Verif.Matrix
