import Verif.Model.Matrix

/-! # Model of the noise sampler on the words of the random generator

lib/utils/gauss.go:30-49 with the functions of Go's `math/rand` it calls through `MathRand` (lib/utils/rand.go:49-51). Every
call of `Uint64` of lib/utils/rand.go:133-148 delivers the next word; a run that needs more words than there are ends with
the error `"no more words"`. `fl` is the rounding of the hardware. The functions of `math/rand` are read from the source of
Go 1.17's standard library; they are not part of /repo. -/

namespace Verif.Gauss
open Res Verif.Matrix

/-- lib/utils/rand.go:127-131 `Int63` for the word `w`. -/
def int63 (w : BitVec 64) : Nat := w.toNat % 2 ^ 63

/-- `(*rand.Rand).Int31`: the upper 31 bits of `Int63`. -/
def int31 (w : BitVec 64) : Nat := int63 w / 2 ^ 32

/-- `(*rand.Rand).Int31n`, which `Intn` calls, for an `n` that is not a power of two. -/
def int31n (n : Nat) : List (BitVec 64) → Res (Nat × List (BitVec 64))
  | [] => err "no more words"
  | w :: ws => if 2 ^ 31 - 1 - 2 ^ 31 % n < int31 w then int31n n ws else ok (int31 w % n, ws)

/-- `(*rand.Rand).Float64`: `float64(r.Int63()) / (1 << 63)`, repeated if this is 1. -/
def float64 (fl : ℚ → ℚ) : List (BitVec 64) → Res (ℚ × List (BitVec 64))
  | [] => err "no more words"
  | w :: ws =>
    let f := fl (fl (int63 w) / 2 ^ 63)
    if f = 1 then float64 fl ws else ok (f, ws)

/-- `(*rand.Rand).Uint64`. -/
def uint64 : List (BitVec 64) → Res (BitVec 64 × List (BitVec 64))
  | [] => err "no more words"
  | w :: ws => ok (w, ws)

/-- lib/utils/gauss.go:35-42, at most `fuel` rounds. The table is rounded to doubles by the compiler. -/
def gaussLoop (fl : ℚ → ℚ) : Nat → List (BitVec 64) → Res (Nat × List (BitVec 64))
  | 0, _ => err "no more words"
  | fuel + 1, ws => do
    let (x, ws) ← int31n cdfTable.length ws
    let (y, ws) ← float64 fl ws
    let t ← idx cdfTable x
    if y < fl t then ok (x, ws) else gaussLoop fl fuel ws

/-- lib/utils/gauss.go:30-49 `GaussSample`. Every round takes words, so that their number bounds the rounds. -/
def gaussSample (fl : ℚ → ℚ) (ws : List (BitVec 64)) : Res (Int × List (BitVec 64)) := do
  let (x, ws) ← gaussLoop fl (ws.length + 1) ws
  let (u, ws) ← uint64 ws
  ok (if u.toNat % 2 = 0 then -(x : Int) else x, ws)

/-- The samples of lib/matrix/matrix.go:117-124 `NewGauss` and matrix128.go:77-89 `NewGauss128`, one per cell. -/
def gaussSamples (fl : ℚ → ℚ) : Nat → List (BitVec 64) → Res (List Int × List (BitVec 64))
  | 0, ws => ok ([], ws)
  | m + 1, ws => do
    let (g, ws) ← gaussSample fl ws
    let (gs, ws) ← gaussSamples fl m ws
    ok (g :: gs, ws)

/-- lib/matrix/matrix.go:117-124 `NewGauss` and matrix128.go:77-89 `NewGauss128` on random words; `enc` is `gauss32` or
`gauss128`. -/
def noise {w : Nat} (fl : ℚ → ℚ) (enc : Int → BitVec w) (r c : Nat) (ws : List (BitVec 64)) : Res (Mat w × List (BitVec 64)) := do
  let (gs, ws) ← gaussSamples fl (r * c) ws
  let m ← newGauss enc r c gs
  ok (m, ws)

end Verif.Gauss
