import Verif.Model.Gauss
import Verif.Model.Lwe

/-! # Model of the draws of a lattice query from the two random generators -/

namespace Verif.Coins
open Res Verif.Rand Verif.Matrix Verif.Lwe Verif.Gauss

/-- lib/utils/rand.go:39 `bufSize`. -/
def bufSize : Nat := 8192

/-- lib/utils/rand.go:154-156 `init`: the generator shared by the whole process, after `m` calls of `Uint64`; `ks` is its
key stream. -/
def shared (ks : Nat → Byte) (m : Nat) : Option (List Nat × Buf) := uint64s 8 m (newBuf bufSize ⟨ks, 0⟩)

/-- The draws of lib/client/lwe.go:39-58 `Query` and lwe128.go:40-59 `Query`, in their order: `matrix.NewRandom(c.rnd, 1, 1)`,
`matrix.NewRandom(c.rnd, 1, N)` and `matrix.NewGauss(1, L)`; `k` is the number of bytes of a word. `rnd` is the client's
generator; `m` words have been drawn from the shared one before. The sampler takes its words from the next `N` ones in their
order, each call of `Uint64` delivering one. -/
def drawCoins (fl : ℚ → ℚ) (k n l : Nat) (rnd : Prg) (ks : Nat → Byte) (m N : Nat) : Res Coins :=
  let t := rnd.read (List.replicate k 0)
  let s := t.2.read (List.replicate (k * n) 0)
  match shared ks m with
  | none => crash "Should never get here"
  | some (_, b) =>
    match uint64s 8 N b with
    | none => crash "Should never get here"
    | some (us, _) => do
      let r ← gaussSamples fl l (us.map (BitVec.ofNat 64))
      ok ⟨t.1, s.1, r.1⟩

/-- The draws of `r` base clients one after the other, from one generator `rnd` and from the words `ws`. -/
def drawMany (fl : ℚ → ℚ) (k n l : Nat) : Nat → Prg → List (BitVec 64) → Res (List Coins)
  | 0, _, _ => ok []
  | r + 1, rnd, ws => do
    let t := rnd.read (List.replicate k 0)
    let s := t.2.read (List.replicate (k * n) 0)
    let (gs, ws) ← gaussSamples fl l ws
    let cs ← drawMany fl k n l r s.2 ws
    ok (⟨t.1, s.1, gs⟩ :: cs)

/-- The draws of lib/client/amplify.go:32-38 `Query` with the `2*tECC+1` base clients of lines 17-23, which share the
generator `rnd`; each of them draws as in `drawCoins`. -/
def drawAmplified (fl : ℚ → ℚ) (n l tECC : Nat) (rnd : Prg) (ks : Nat → Byte) (m N : Nat) : Res (List Coins) :=
  match shared ks m with
  | none => crash "Should never get here"
  | some (_, b) =>
    match uint64s 8 N b with
    | none => crash "Should never get here"
    | some (us, _) => drawMany fl 4 n l (2 * tECC + 1) rnd (us.map (BitVec.ofNat 64))

end Verif.Coins
