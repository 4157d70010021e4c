import Verif.Model.Field

/-! # Model of lib/fss (two-party function secret sharing for point functions)

AES under the four fixed keys of lib/fss/common.go:47-53 is the parameter `E : Nat → List Byte → List Byte`
(`E i x` encrypts the 16-byte block `x` under key `i`). -/

namespace Verif.Fss
open Res Verif.Field

/-- lib/fss/common.go:27-32 `FssKeyEq2P`. -/
structure Key where
  sInit : List Byte
  tInit : Byte
  cw : List (List Byte)
  finalCW : List U32
deriving DecidableEq

/-- The environment of an `Fss` value (lib/fss/common.go:15-24): the fixed block ciphers, and the fresh
randomness `toElement` falls back to (with a bound on its re-sampling loop). -/
structure Env where
  E : Nat → List Byte → List Byte
  fresh : Nat → U32
  fuel : Nat

/-- lib/fss/common.go:59-66 `prf`: Matyas-Meyer-Oseas with the fixed keys. There are four block ciphers
(lib/fss/client.go:20-29, server.go:18-25); `Encrypt` panics on inputs shorter than a block. -/
def prf (E : Nat → List Byte → List Byte) (x : List Byte) (numBlocks : Nat) (out : List Byte) :
    Res (List Byte) :=
  forLoop numBlocks (fun i out =>
    if 4 ≤ i then crash "index out of range"
    else if x.length < 16 then crash "crypto/aes: input not full block"
    else do
      let temp := E i (x.take 16)
      let window ← slice out (i * 16) out.length
      copyAt out (i * 16) (fastxor window temp x)) out

/-- lib/fss/common.go:68-72 `convertBlock(f, x, out)`: `ocb` is `f.OutConvertBlock`, which persists between
calls. Returns the converted elements and the new contents of `f.OutConvertBlock`. -/
def convertBlock (env : Env) (ocb : List Byte) (x : List Byte) (out : List U32) :
    Res (List U32 × List Byte) := do
  let ocb ← prf env.E x (out.length / 4) ocb
  bytesToElements env.fresh env.fuel out ocb

/-- lib/fss/client.go:17-36 `ClientInitialize` / lib/fss/server.go:16-32 `ServerInitialize`: the only state
that matters between calls is `OutConvertBlock`. (`f.Temp` and the 48 bytes of `f.Out` that are read are
overwritten by `prf` before every use, so they are modelled as fresh zeroed scratch space.) -/
def initFss (blockLength : Nat) : List Byte := List.replicate (blockLength * 4) 0

/-- lib/fss/client.go:30 and server.go:26: `f.N`. -/
def maxBits : Nat := 256

/-- One iteration of the loop lib/fss/client.go:73-123. Returns the correction word (the same for both keys,
lines 102-110) and the updated seeds and control bits. The byte-wise loops over `j` (lines 103-106, 112-115) are
written with slices of 16 bytes at the same offsets. -/
def genStep (E : Nat → List Byte → List Byte) (a : Bool) (s0 s1 : List Byte) (t0 t1 : Byte) :
    Res (List Byte × List Byte × List Byte × Byte × Byte) := do
  let leftStart := 0
  let rightStart := 16 + 1
  let o0 ← prf E s0 3 (List.replicate 64 0)
  let prfOut0 ← slice o0 0 48
  let o1 ← prf E s1 3 (List.replicate 64 0)
  let prfOut1 ← slice o1 0 48
  let x0L ← idx prfOut0 16
  let x0R ← idx prfOut0 33
  let x1L ← idx prfOut1 16
  let x1R ← idx prfOut1 33
  let t0Left := x0L % 2
  let t0Right := x0R % 2
  let t1Left := x1L % 2
  let t1Right := x1R % 2
  let aBit : Byte := if a then 1 else 0
  let keep := if aBit = 0 then leftStart else rightStart
  let lose := if aBit = 0 then rightStart else leftStart
  let l0 ← slice prfOut0 lose (lose + 16)
  let l1 ← slice prfOut1 lose (lose + 16)
  let cs := List.zipWith (· ^^^ ·) l0 l1
  let cwL := t0Left ^^^ t1Left ^^^ aBit ^^^ 1
  let cwR := t0Right ^^^ t1Right ^^^ aBit
  let k0 ← slice prfOut0 keep (keep + 16)
  let k1 ← slice prfOut1 keep (keep + 16)
  let s0' := List.zipWith (· ^^^ ·) k0 (cs.map (fun c => t0 * c))
  let s1' := List.zipWith (· ^^^ ·) k1 (cs.map (fun c => t1 * c))
  let tCWKeep := if keep = rightStart then cwR else cwL
  let y0 ← idx prfOut0 (keep + 16)
  let y1 ← idx prfOut1 (keep + 16)
  let t0' := (y0 % 2) ^^^ (tCWKeep * t0)
  let t1' := (y1 % 2) ^^^ (tCWKeep * t1)
  ok (cs ++ [cwL, cwR], s0', s1', t0', t1')

/-- State of the loop of lib/fss/client.go:73-123. -/
structure GenState where
  cw : List (List Byte)
  s0 : List Byte
  s1 : List Byte
  t0 : Byte
  t1 : Byte

/-- lib/fss/client.go:71-123: the loop over the bits of `a`. -/
def genLoop (E : Nat → List Byte → List Byte) (a : List Bool) (s0 s1 : List Byte) (t0 t1 : Byte) :
    Res GenState :=
  forLoop a.length (fun i (g : GenState) => do
    let ai ← idx a i
    let (cw, s0, s1, t0, t1) ← genStep E ai g.s0 g.s1 g.t0 g.t1
    ok ⟨g.cw ++ [cw], s0, s1, t0, t1⟩) ⟨[], s0, s1, t0, t1⟩

/-- lib/fss/client.go:133-149: the final correction word. -/
def finalCW (b tmp0 tmp1 : List U32) (t1 : Byte) : Res (List U32) :=
  forLoop b.length (fun i fcw => do
    let bi ← idx b i
    let x0 ← idx tmp0 i
    let x1 ← idx tmp1 i
    let val := (bi + (modP - x0)) % modP
    let val := (val + x1) % modP
    if t1 = 1 then setAt fcw i (modP - val) else setAt fcw i val) (List.replicate b.length 0)

/-- lib/fss/client.go:40-152 `GenerateTreePF(a, b)`. `r1` (17 bytes) and `r2` (16 bytes) are the outputs of the
two calls of `rand.Read`; `ocb` is `f.OutConvertBlock`. -/
def generateTreePF (env : Env) (ocb r1 r2 : List Byte) (a : List Bool) (b : List U32) :
    Res (Key × Key × List Byte) := do
  let sInit0 ← slice r1 0 16
  let tb ← idx r1 16
  let tInit0 := tb % 2
  let sInit1 := r2
  let tInit1 := tInit0 ^^^ 1
  let s0 ← copyAt (List.replicate 16 0) 0 sInit0
  let s1 ← copyAt (List.replicate 16 0) 0 sInit1
  let g ← genLoop env.E a s0 s1 tInit0 tInit1
  let (tmp0, ocb) ← convertBlock env ocb g.s0 (List.replicate b.length 0)
  let (tmp1, ocb) ← convertBlock env ocb g.s1 (List.replicate b.length 0)
  let fcw ← finalCW b tmp0 tmp1 g.t1
  ok (⟨sInit0, tInit0, g.cw, fcw⟩, ⟨sInit1, tInit1, g.cw, fcw⟩, ocb)

/-- Loop of lib/fss/server.go:53-64: xor the correction word into the expanded seed. -/
def correct (out : List Byte) (t : Byte) (cw : List Byte) : Res (List Byte) := do
  let (out, _) ← forLoop (16 * 2 + 2) (fun j (s : List Byte × Nat) => do
    let count := if j = 16 + 1 then 0 else if j = 16 * 2 + 1 then 16 + 1 else s.2
    let o ← idx s.1 j
    let c ← idx cw count
    let out ← setAt s.1 j (o ^^^ (t * c))
    ok (out, count + 1)) (out, 0)
  ok out

/-- One iteration of the loop lib/fss/server.go:42-74 with input bit `x`. -/
def evalStep (E : Nat → List Byte → List Byte) (x : Bool) (cw : List Byte) (s : List Byte) (t : Byte) :
    Res (List Byte × Byte) := do
  let xBit : Byte := if x then 1 else 0
  let out ← prf E s 3 (List.replicate 64 0)
  let out ← correct out t cw
  if xBit = 0 then do
    let s' ← slice out 0 16
    let o ← idx out 16
    ok (s', o % 2)
  else do
    let s' ← slice out 17 33
    let o ← idx out 33
    ok (s', o % 2)

/-- lib/fss/server.go:38-74: walk down the tree along the bits of `x`. The bit at position `f.N` = 256 is
taken to be 0 (lines 43-49). -/
def evalPath (E : Nat → List Byte → List Byte) (k : Key) (x : List Bool) : Res (List Byte × Byte) := do
  let s0 ← copyAt (List.replicate 16 0) 0 k.sInit
  forLoop x.length (fun i (st : List Byte × Byte) => do
    let xi ← (if i ≠ maxBits then idx x i else ok false)
    let cw ← idx k.cw i
    evalStep E xi cw st.1 st.2) (s0, k.tInit)

/-- lib/fss/server.go:78-85: combine the converted seed with the final correction word. -/
def evalOut (serverNum : Byte) (tmp fcw : List U32) (t : Byte) (out : List U32) : Res (List U32) :=
  forLoop out.length (fun i out => do
    let x ← idx tmp i
    let c ← idx fcw i
    let v := (x + t.setWidth 32 * c) % modP
    if serverNum = 0 then setAt out i v else setAt out i (modP - v)) out

/-- lib/fss/server.go:34-86 `EvaluatePF(serverNum, k, x, out)`; `ocb` is `f.OutConvertBlock`. Returns the new
contents of `out` and of `f.OutConvertBlock`. -/
def evaluatePF (env : Env) (ocb : List Byte) (serverNum : Byte) (k : Key) (x : List Bool)
    (out : List U32) : Res (List U32 × List Byte) := do
  let (s, t) ← evalPath env.E k x
  let (tmp, ocb) ← convertBlock env ocb s (List.replicate out.length 0)
  let out ← evalOut serverNum tmp k.finalCW t out
  ok (out, ocb)

end Verif.Fss
