import Verif.Model.Coins

/-! # Model of one lattice query after the other by one client object -/

namespace Verif.LweStream
open Res Verif.Rand Verif.Matrix Verif.Lwe Verif.Gauss

/-- The draws of lib/client/lwe.go:39-58 `Query` and lwe128.go:40-59 `Query`, as in `Coins.drawCoins`, with what they leave for the
next query: the client's generator `rnd`, which lib/client/lwe.go:31-37 keeps in the client, and the words `ws` that the generator
shared by the process (lib/utils/rand.go:154-156) will still deliver. -/
def drawNext (fl : ℚ → ℚ) (k n l : Nat) (rnd : Prg) (ws : List (BitVec 64)) : Res (Coins × Prg × List (BitVec 64)) := do
  let t := rnd.read (List.replicate k 0)
  let s := t.2.read (List.replicate (k * n) 0)
  let (gs, ws) ← gaussSamples fl l ws
  ok (⟨t.1, s.1, gs⟩, s.2, ws)

/-- The draws of lib/client/amplify.go:32-38 `Query`, whose `r` base clients (lines 17-23) share the generator `rnd` and draw one after
the other, with what they leave for the next query. -/
def drawGroup (fl : ℚ → ℚ) (k n l : Nat) : Nat → Prg → List (BitVec 64) → Res (List Coins × Prg × List (BitVec 64))
  | 0, rnd, ws => ok ([], rnd, ws)
  | r + 1, rnd, ws => do
    let (c, rnd, ws) ← drawNext fl k n l rnd ws
    let (cs, rnd, ws) ← drawGroup fl k n l r rnd ws
    ok (c :: cs, rnd, ws)

/-- The next `N` words of the generator shared by the process (lib/utils/rand.go:154-156) with key stream `ks`, after `m`
words. -/
def words (ks : Nat → Byte) (m N : Nat) : Res (List (BitVec 64)) :=
  match Coins.shared ks m with
  | none => crash "Should never get here"
  | some (_, b) =>
    match uint64s 8 N b with
    | none => crash "Should never get here"
    | some (us, _) => ok (us.map (BitVec.ofNat 64))

end Verif.LweStream
