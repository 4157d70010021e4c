import Verif.Model.Matrix
import Verif.Model.Ecc
import Verif.Model.Database

/-! # Model of the single-server LWE schemes

lib/client/lwe.go, lwe128.go, amplify.go, lib/server/lwe.go, lwe128.go, amplify.go and lib/database/lwe.go, lwe128.go.
The 32-bit and the 128-bit code is the same line for line except for the operations collected in `Scheme`.
Queried positions are natural numbers (a negative one panics when the query or the result is indexed). -/

namespace Verif.Lwe
open Res Verif.Matrix Verif.Database

/-- The operations in which the 32-bit and the 128-bit files differ. -/
structure Scheme (w : Nat) where
  /-- `BytesMod` -/
  k : Nat
  mul : Mat w → Mat w → Res (Mat w)
  binMul : Mat w → Mat 8 → Res (Mat w)
  gauss : Int → BitVec w
  inRange : U32 → BitVec w → Bool
  toBytes : Mat w → Res (List Byte)
  ofBytes : List Byte → Res (Mat w)

/-- lib/client/lwe.go:97-99 `inRange`. -/
def inRange32 (b : U32) (v : U32) : Bool := decide (v.toNat < b.toNat) || decide ((-b).toNat < v.toNat)

/-- lib/client/lwe128.go:98-102 `inRange`; `B + 1` is computed in `uint32`. -/
def inRange128 (b : U32) (v : U128) : Bool :=
  let tmp := 2 ^ 128 - 1 - (b + 1).toNat
  decide (v.toNat < b.toNat) || decide (tmp < v.toNat)

/-- The 32-bit scheme. -/
def lwe32 : Scheme 32 := ⟨4, mul, binaryMul, gauss32, inRange32, matrixToBytes, bytesToMatrix⟩

/-- The 128-bit scheme. -/
def lwe128 : Scheme 128 := ⟨16, mul128, binaryMul128, gauss128, inRange128, matrix128ToBytes, bytesToMatrix128⟩

/-- lib/database/lwe.go:10-13 `LWE`, lwe128.go:10-13 `LWE128`: the matrix and the fields of `Info` in use. -/
structure Db (w : Nat) where
  matrix : Mat 8
  numRows : Nat
  numColumns : Nat
  digest : Mat w

/-- lib/database/lwe.go:18-25 `Digest`, lwe128.go:15-22 `Digest128`; `n` is the `N` of the default parameters. -/
def digest {w : Nat} (S : Scheme w) (aesctr : List Byte → Nat → Byte) (n : Nat) (m : Mat 8) (rows : Nat) :
    Res (Mat w) :=
  S.binMul (seedMatrix aesctr w S.k seedMatrixA n rows) m

/-- lib/database/lwe.go:40-46, lwe128.go:38-44: bit `i` of the random bytes; the value is below the plaintext modulus. -/
def fillBits (data : List Byte) (m : Mat 8) : Res (Mat 8) := do
  let d ← forLoop m.data.length (fun i d => do
    let x ← idx data (i / 8)
    let val := (x >>> (i % 8)) &&& 1
    if 2 ≤ val.toNat then crash "Plaintext value too large" else setAt d i val) m.data
  ok { m with data := d }

/-- lib/database/lwe.go:32-62 `CreateRandomBinaryLWE`, lwe128.go:29-60 `CreateRandomBinaryLWE128`; `data` are the
`numRows*numColumns/8+1` bytes delivered by the random source. -/
def createRandomBinary {w : Nat} (S : Scheme w) (aesctr : List Byte → Nat → Byte) (n : Nat) (data : List Byte)
    (numRows numColumns : Nat) : Res (Db w) := do
  let m ← fillBits data (new 8 numRows numColumns)
  let g ← digest S aesctr n m numRows
  ok ⟨m, numRows, numColumns, g⟩

/-- What the client draws: the bytes behind `t` and the secret (`matrix.NewRandom(c.rnd, ..)`) and the results of
`GaussSample`. -/
structure Coins where
  tBytes : List Byte
  sBytes : List Byte
  noise : List Int

/-- lib/client/lwe.go:22-29 `StateLWE`, lwe128.go:23-30 `StateLWE128`. -/
structure State (w : Nat) where
  a : Mat w
  digest : Mat w
  secret : Mat w
  i : Nat
  j : Nat
  t : BitVec w

/-- lib/client/lwe.go:39-66 `Query`, lwe128.go:40-67 `Query`; `digest` is `c.dbInfo.DigestLWE(128)`. -/
def query {w : Nat} (S : Scheme w) (aesctr : List Byte → Nat → Byte) (p : Params) (digest : Mat w) (coins : Coins)
    (i j : Nat) : Res (State w × Mat w) := do
  let rand := ofRandom w S.k 1 1 coins.tBytes
  let t ← rand.get 0 0
  let st : State w := ⟨seedMatrix aesctr w S.k p.seedA p.n p.l, digest, ofRandom w S.k 1 p.n coins.sBytes, i, j, t⟩
  let q ← S.mul st.secret st.a
  let e ← newGauss S.gauss 1 p.l coins.noise
  let msg ← (new w 1 p.l).set 0 i st.t
  let q ← q.add e
  let q ← q.add msg
  ok (st, q)

/-- lib/client/lwe.go:68-72 `QueryBytes`, lwe128.go:69-73 `QueryBytes`; lib/utils/utils.go:11-13. -/
def queryBytes {w : Nat} (S : Scheme w) (aesctr : List Byte → Nat → Byte) (p : Params) (numColumns : Nat)
    (digest : Mat w) (coins : Coins) (index : Nat) : Res (State w × List Byte) :=
  if numColumns = 0 then crash "integer divide by zero" else do
  let (st, m) ← query S aesctr p digest coins (index / numColumns) (index % numColumns)
  let b ← S.toBytes m
  ok (st, b)

/-- Loop body of lib/client/lwe.go:79-88, lwe128.go:80-89. -/
def decide1 {w : Nat} (S : Scheme w) (b : U32) (t : BitVec w) (d : Mat w) (i : Nat) (outs : List U32) :
    Res (List U32) := do
  let v ← d.get 0 i
  if S.inRange b v = true then setAt outs i 0
  else if S.inRange b (v - t) = true then setAt outs i 1
  else err "REJECT"

/-- lib/client/lwe.go:74-91 `Reconstruct`, lwe128.go:75-92 `Reconstruct`. -/
def reconstruct {w : Nat} (S : Scheme w) (p : Params) (st : State w) (answers : Mat w) : Res U32 := do
  let std ← S.mul st.secret st.digest
  let d ← answers.sub std
  let outs ← forLoop p.m (fun i outs => decide1 S p.b st.t d i outs) (List.replicate p.m 0)
  idx outs st.j

/-- lib/client/lwe.go:93-95 `ReconstructBytes`, lwe128.go:94-96. -/
def reconstructBytes {w : Nat} (S : Scheme w) (p : Params) (st : State w) (a : List Byte) : Res U32 := do
  let m ← S.ofBytes a
  reconstruct S p st m

/-- lib/server/lwe.go:27-29 `Answer`, lwe128.go:27-29 `Answer`. -/
def answer {w : Nat} (S : Scheme w) (db : Db w) (q : Mat w) : Res (Mat w) := S.binMul q db.matrix

/-- lib/server/lwe.go:20-23 `AnswerBytes`, lwe128.go:20-23 `AnswerBytes`. -/
def answerBytes {w : Nat} (S : Scheme w) (db : Db w) (q : List Byte) : Res (List Byte) := do
  let m ← S.ofBytes q
  let a ← answer S db m
  S.toBytes a

/-- One retrieval as in simulations/simul.go and lwe_test.go: query, the server's bytes, reconstruction. -/
def retrieve {w : Nat} (S : Scheme w) (aesctr : List Byte → Nat → Byte) (p : Params) (numColumns : Nat)
    (digest : Mat w) (coins : Coins) (index : Nat) (server : List Byte → Res (List Byte)) : Res U32 := do
  let (st, q) ← queryBytes S aesctr p numColumns digest coins index
  let a ← server q
  reconstructBytes S p st a

/-! ### Amplification -/

/-- lib/client/amplify.go:32-38 `Query`; `coins` holds one entry per repetition (line 18: `2*tECC+1` of them). -/
def amplifyQuery (aesctr : List Byte → Nat → Byte) (p : Params) (digest : Mat 32) (coins : List Coins)
    (i j : Nat) : Res (List (State 32 × Mat 32)) :=
  coins.mapM (fun c => query lwe32 aesctr p digest c i j)

/-- lib/client/amplify.go:40-46 `QueryBytes`. -/
def amplifyQueryBytes (aesctr : List Byte → Nat → Byte) (p : Params) (numColumns : Nat) (digest : Mat 32)
    (coins : List Coins) (index : Nat) : Res (List (State 32) × List Byte) :=
  if numColumns = 0 then crash "integer divide by zero" else do
  let ms ← amplifyQuery aesctr p digest coins (index / numColumns) (index % numColumns)
  let b ← matricesToBytes (ms.map (·.2))
  ok (ms.map (·.1), b)

/-- lib/client/amplify.go:53-57: a failed repetition is reported as "REJECT". -/
def repetition (p : Params) (st : State 32) (answer : Mat 32) : Res U32 :=
  match reconstruct lwe32 p st answer with
  | ok b => ok b
  | err _ => err "REJECT"
  | crash m => crash m

/-- lib/client/amplify.go:48-61 `Reconstruct`; `sts` are the states of the base clients. -/
def amplifyReconstruct (p : Params) (sts : List (State 32)) (answers : List (Mat 32)) : Res U32 := do
  let outputs ← forLoop sts.length (fun i outputs => do
    let a ← idx answers i
    let st ← idx sts i
    let b ← repetition p st a
    setAt outputs i b) (List.replicate sts.length 0)
  Ecc.decode outputs

/-- lib/client/amplify.go:63-65 `ReconstructBytes`. -/
def amplifyReconstructBytes (p : Params) (sts : List (State 32)) (a : List Byte) : Res U32 := do
  let ms ← bytesToMatrices a
  amplifyReconstruct p sts ms

/-- lib/server/amplify.go:22-29 `Answer`. -/
def amplifyAnswer (db : Db 32) (qs : List (Mat 32)) : Res (List (Mat 32)) :=
  qs.mapM (fun q => binaryMul q db.matrix)

/-- lib/server/amplify.go:31-36 `AnswerBytes`. -/
def amplifyAnswerBytes (db : Db 32) (q : List Byte) : Res (List Byte) := do
  let qs ← bytesToMatrices q
  let ans ← amplifyAnswer db qs
  matricesToBytes ans

/-- One amplified retrieval. -/
def amplifyRetrieve (aesctr : List Byte → Nat → Byte) (p : Params) (numColumns : Nat) (digest : Mat 32)
    (coins : List Coins) (index : Nat) (server : List Byte → Res (List Byte)) : Res U32 := do
  let (sts, q) ← amplifyQueryBytes aesctr p numColumns digest coins index
  let a ← server q
  amplifyReconstructBytes p sts a

end Verif.Lwe
