import Verif.Go

/-! # Model of lib/ecc/ecc.go (repetition code) -/

namespace Verif.Ecc
open Res

/-- lib/ecc/ecc.go:14-21 `(*ECC).Encode`; `t` is the field of the `ECC` value. -/
def encode (t : Nat) (x : U32) : Res (List U32) :=
  let out := List.replicate (2 * t + 1) (0 : U32)
  forLoop out.length (fun i out => setAt out i x) out

/-- lib/ecc/ecc.go:24-47 `(*ECC).Decode`. The variable `votes` (lines 26-33) is computed as in the
source although it is never used; `int` is unbounded here. -/
def decode (inp : List U32) : Res U32 := do
  let decoded ← idx inp 0
  let _votes ← forLoop (inp.length - 1) (fun i (votes : Int) => do
    let x ← idx inp (i + 1)
    ok (if x = decoded then votes + 1 else votes - 1)) 1
  let count ← forLoop inp.length (fun i (count : Nat) => do
    let x ← idx inp i
    ok (if x = decoded then count + 1 else count)) 0
  if count > inp.length / 2 then ok decoded
  else err "impossible to find a decoded word"

end Verif.Ecc
