import Verif.Model.Rand

/-! # Model of lib/field/field.go -/

namespace Verif.Field
open Res Verif.Rand

/-- lib/field/field.go:13 `ModP` = 2^31 - 1. -/
def modP : U32 := 2147483647#32

/-- lib/field/field.go:16 `Mask`. -/
def mask : Byte := 127#8

/-- lib/field/field.go:17 `ConcurrentExecutions`. -/
def concurrentExecutions : Nat := 4

/-- lib/field/field.go:20-26 `NegateVector` (in place: the argument is overwritten and returned). -/
def negateVector (inp : List U32) : Res (List U32) :=
  forLoop inp.length (fun i v => do
    let x ← idx v i
    setAt v i (modP - x)) inp

/-- The loop of lib/field/field.go:38-45: while the value is `ModP`, take an unmasked word of fresh system
randomness. `fresh j` is the word drawn in iteration `j`; `fuel` bounds the iterations (running out of
fuel is reported as a crash: the loop did not finish). -/
def resample (fresh : Nat → U32) : Nat → Nat → U32 → Res U32
  | 0, _, out => if out = modP then crash "not terminated" else ok out
  | fuel + 1, j, out => if out = modP then resample fresh fuel (j + 1) (fresh j) else ok out

/-- lib/field/field.go:31-47 `toElement`: returns the element and the argument, whose first byte is
masked in place. -/
def toElement (fresh : Nat → U32) (fuel : Nat) (inp : List Byte) : Res (U32 × List Byte) := do
  let b0 ← idx inp 0
  let inp ← setAt inp 0 (b0 &&& mask)
  let first ← slice inp 0 4
  let out ← getBE32 first
  let out ← resample fresh fuel 0 out
  ok (out, inp)

/-- lib/field/field.go:93-101 `BytesToElements(out, in)`: overwrites `out`, masks bytes of `in` in place. -/
def bytesToElements (fresh : Nat → U32) (fuel : Nat) (out : List U32) (inp : List Byte) :
    Res (List U32 × List Byte) :=
  forLoop out.length (fun i (s : List U32 × List Byte) => do
    let chunk ← slice s.2 (i * 4) ((i + 1) * 4)
    let (e, chunk) ← toElement fresh fuel chunk
    let inp ← copyAt s.2 (i * 4) chunk
    let out ← setAt s.1 i e
    ok (out, inp)) (out, inp)

/-- The loop of lib/field/field.go:49-63 `RandElementWithPRG`, entered with `out = ModP`. `buf` is
reused between iterations. -/
def randElementLoop : Nat → List Byte → U32 → Prg → Res (U32 × Prg)
  | 0, _, out, g => if out = modP then crash "not terminated" else ok (out, g)
  | fuel + 1, buf, out, g =>
    if out = modP then do
      let (buf, g) := g.read buf
      let b0 ← idx buf 0
      let buf ← setAt buf 0 (b0 &&& mask)
      let out ← getBE32 buf
      randElementLoop fuel buf out g
    else ok (out, g)

/-- lib/field/field.go:49-63 `RandElementWithPRG`. -/
def randElementWithPRG (fuel : Nat) (g : Prg) : Res (U32 × Prg) :=
  randElementLoop fuel (List.replicate 4 0) modP g

/-- The inner loop of lib/field/field.go:81-83. One iteration suffices because `RandElementWithPRG`
never returns `ModP`; `fuel` bounds both loops. -/
def randVectorFix (fuel : Nat) : Nat → U32 → Prg → Res (U32 × Prg)
  | 0, out, g => if out = modP then crash "not terminated" else ok (out, g)
  | k + 1, out, g =>
    if out = modP then do
      let (out, g) ← randElementWithPRG fuel g
      randVectorFix fuel k out g
    else ok (out, g)

/-- lib/field/field.go:69-87 `RandVectorWithPRG`. -/
def randVectorWithPRG (fuel length : Nat) (g : Prg) : Res (List U32 × Prg) := do
  let buf := List.replicate (length * 4) (0 : Byte)
  let (buf, g) := g.read buf
  let out := List.replicate length (0 : U32)
  let (out, _, g) ← forLoop length (fun i (s : List U32 × List Byte × Prg) => do
    let (out, buf, g) := s
    let b0 ← idx buf (i * 4)
    let buf ← setAt buf (i * 4) (b0 &&& mask)
    let chunk ← slice buf (i * 4) ((i + 1) * 4)
    let x ← getBE32 chunk
    let (x, g) ← randVectorFix fuel fuel x g
    let out ← setAt out i x
    ok (out, buf, g)) (out, buf, g)
  ok (out, g)

/-- lib/field/field.go:106-121 `VectorToBytes` on a `[]uint32` (the default branch of the type switch,
which returns nil, is not modelled). -/
def vectorToBytes (vec : List U32) : Res (List Byte) :=
  let elemSize := 3
  let out := List.replicate (vec.length * elemSize) (0 : Byte)
  forLoop vec.length (fun i out => do
    let e ← idx vec i
    let fieldBytes := putBE32 e
    let tail ← slice fieldBytes 1 fieldBytes.length
    let _w ← slice out (i * elemSize) ((i + 1) * elemSize)
    copyAt out (i * elemSize) tail) out

end Verif.Field
