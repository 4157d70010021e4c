import Verif.Model.Fss
import Verif.Model.Query

/-! # Model of the predicate-query client and server (lib/client/fss.go, lib/server/fss.go) -/

namespace Verif.Predicate
open Res Verif.Field Verif.Fss Verif.Query Verif.Rand

/-- Go `uint64`. -/
abbrev U64 := BitVec 64

/-- lib/database/db.go:28-33 `KeyInfo`; `BitLength` is never read. `email` is `UserId.Email`. -/
structure KeyInfo where
  email : List Byte
  creation : Time
  algo : Byte

/-- The part of lib/database/db.go:21-26 `DB` used by the predicate server. -/
structure KeyDB where
  numColumns : Nat
  keys : List KeyInfo

/-- lib/query/query.go:37-40 `FSS`: what is sent to a server. -/
structure Msg where
  info : Info
  key : Key

/-! ### Server -/

/-- lib/server/fss.go:55-57: add `tmp` to `out`. -/
def accumulate (out tmp : List U32) : Res (List U32) :=
  forLoop out.length (fun j out => do
    let o ← idx out j
    let t ← idx tmp j
    setAt out j ((o + t) % modP)) out

/-- State of the loops of lib/server/fss.go:42-138: `out`, `tmp`, and `OutConvertBlock` of `s.fss`. -/
structure Acc where
  out : List U32
  tmp : List U32
  buf : List Byte

/-- The counting loops of lib/server/fss.go: 48-58, 61-67, 70-79 and 85-102 differ only in how the identifier of
a key is computed (`sel`; `none` is `continue`). `env i` is the environment (block ciphers, fresh randomness)
during iteration `i`. -/
def countLoop (env : Nat → Env) (sn : Byte) (db : KeyDB) (k : Key)
    (sel : KeyInfo → Res (Option (List Bool))) (s : Acc) : Res Acc :=
  forLoop db.numColumns (fun i (s : Acc) => do
    let ki ← idx db.keys i
    let id ← sel ki
    match id with
    | none => ok s
    | some id => do
      let (tmp, buf) ← evaluatePF (env i) s.buf sn k id s.tmp
      let out ← accumulate s.out tmp
      ok ⟨out, tmp, buf⟩) s

/-- lib/server/fss.go:125-132: add the share to the count and the share times the age to the sum. -/
def accumulateAvg (out sum tmp : List U32) (diffYears : Int) : Res (List U32 × List U32) :=
  forLoop out.length (fun j (s : List U32 × List U32) => do
    let o ← idx s.1 j
    let t ← idx tmp j
    let out ← setAt s.1 j ((o + t) % modP)
    let tmpYears : U64 := (t.setWidth 64 * BitVec.ofInt 64 diffYears) % modP.setWidth 64
    let x ← idx s.2 j
    let sum ← setAt s.2 j ((x + tmpYears.setWidth 32) % modP)
    ok (out, sum)) (out, sum)

/-- lib/server/fss.go:108-133, the loop for averages. `now i` is `time.Now().Year()` during iteration `i`. -/
def avgLoop (env : Nat → Env) (now : Nat → Int) (sn : Byte) (db : KeyDB) (k : Key)
    (sel : KeyInfo → Res (Option (List Bool))) (s : Acc) (sum : List U32) : Res (Acc × List U32) :=
  forLoop db.numColumns (fun i (s : Acc × List U32) => do
    let ki ← idx db.keys i
    let id ← sel ki
    match id with
    | none => ok s
    | some id => do
      let (tmp, buf) ← evaluatePF (env i) s.1.buf sn k id s.1.tmp
      let diffYears := now i - ki.creation.year
      if diffYears < 0 then ok (⟨s.1.out, tmp, buf⟩, s.2)
      else do
        let (out, sum) ← accumulateAvg s.1.out s.2 tmp diffYears
        ok (⟨out, tmp, buf⟩, sum)) (s, sum)

/-- lib/server/fss.go:71-74 selector for `CreationTime`: a marshalling error is a panic. -/
def selCreation (ki : KeyInfo) : Res (Option (List Bool)) :=
  match idForCreationTime ki.creation with
  | ok id => ok (some id)
  | err _ => crash "impossible to marshal creation date"
  | crash m => crash m

/-- lib/server/fss.go:61-62 selector for `PubKeyAlgo`. -/
def selAlgo (ki : KeyInfo) : Res (Option (List Bool)) := do
  let id ← idForPubKeyAlgo ki.algo
  ok (some id)

/-- lib/server/fss.go:49-53 (and 111-114) selector for `UserId`. -/
def selEmail (hash : List Byte → List Byte) (i : Info) (ki : KeyInfo) : Res (Option (List Bool)) :=
  idForEmail hash i ki.email

/-- lib/server/fss.go:86-97 selector for conjunctions: year, then e-mail. -/
def selAnd (hash : List Byte → List Byte) (i : Info) (ki : KeyInfo) : Res (Option (List Bool)) :=
  match idForYearCreationTime ki.creation with
  | ok year => do
    let id ← idForEmail hash i ki.email
    match id with
    | none => ok none
    | some id => ok (some (year ++ id))
  | err m => crash m
  | crash m => crash m

/-- lib/server/fss.go:42-138 `answer`. `out` and `tmp` are fresh zero slices of length `n`
(lib/server/predicate_apir.go:46-51 with `n` = 5, predicate_pir.go:47-52 with `n` = 1). Returns the answer and
the new contents of `OutConvertBlock`. -/
def answer (hash : List Byte → List Byte) (env : Nat → Env) (now : Nat → Int) (sn : Byte) (db : KeyDB)
    (n : Nat) (buf : List Byte) (q : Msg) : Res (List U32 × List Byte) :=
  let s : Acc := ⟨List.replicate n 0, List.replicate n 0, buf⟩
  let count := fun sel => do
    let s ← countLoop env sn db q.key sel s
    ok (s.out, s.buf)
  if !q.info.and && !q.info.avg && !q.info.sum then
    match q.info.target with
    | 0 => count (selEmail hash q.info)
    | 2 => count selAlgo
    | 1 => count selCreation
    | _ => crash "not yet implemented"
  else if q.info.and && !q.info.avg && !q.info.sum then count (selAnd hash q.info)
  else if q.info.and && q.info.sum && !q.info.avg then crash "sum not implemented"
  else if q.info.and && q.info.avg && !q.info.sum then do
    let (s, sum) ← avgLoop env now sn db q.key (selEmail hash q.info) s (List.replicate n 0)
    ok (s.out ++ sum, s.buf)
  else crash "query not recognized"

/-! ### Client -/

/-- Client state (lib/client/client.go:21-33) used by the predicate schemes. -/
structure State where
  alphas : List U32
  a : List U32
deriving DecidableEq

/-- lib/client/fss.go:53-63: draw the MAC keys. `executions` is 1 or 1 + `ConcurrentExecutions`
(lib/client/predicate_pir.go:19, predicate_apir.go:21). -/
def drawKeys (fuel executions : Nat) (rnd : Prg) : Res (State × Prg) := do
  let alphas := List.replicate executions (0 : U32)
  let a ← setAt (List.replicate executions (0 : U32)) 0 1
  let (alphas, a, rnd) ← forLoop (executions - 1) (fun i (s : List U32 × List U32 × Prg) => do
    let (e, rnd) ← randElementWithPRG fuel s.2.2
    let alphas ← setAt s.1 i e
    let a ← setAt s.2.1 (i + 1) e
    ok (alphas, a, rnd)) (alphas, a, rnd)
  ok (⟨alphas, a⟩, rnd)

/-- lib/client/fss.go:47-72 `query`. `r1`, `r2` is the randomness of key generation, `buf` is
`OutConvertBlock` of `c.Fss`. -/
def query (env : Env) (fuel executions : Nat) (rnd : Prg) (buf r1 r2 : List Byte) (q : ClientFSS)
    (numServers : Int) : Res (List Msg × State × Prg × List Byte) := do
  if numServers ≠ 2 then crash "invalid query inputs"
  else
    let (st, rnd) ← drawKeys fuel executions rnd
    let (k0, k1, buf) ← generateTreePF env buf r1 r2 q.input st.a
    ok ([⟨q.info, k0⟩, ⟨q.info, k1⟩], st, rnd, buf)

/-- `uint32((uint64(data) * uint64(alpha)) % uint64(ModP))`, lib/client/fss.go:99-100, 106-107, 124-125. -/
def tagOf (data alpha : U32) : U32 :=
  ((data.setWidth 64 * alpha.setWidth 64) % modP.setWidth 64 : U64).setWidth 32

/-- Integer division of `uint32`: panics on a zero divisor. -/
def divU32 (a b : U32) : Res U32 := if b = 0 then crash "integer divide by zero" else ok (a / b)

/-- lib/client/fss.go:83-135 `reconstruct`. -/
def reconstruct (executions : Nat) (st : State) (answers : List (List U32)) : Res U32 := do
  let a0 ← idx answers 0
  if a0.length = 2 * executions then
    let countFirst ← slice a0 0 executions
    let a1 ← idx answers 1
    let countSecond ← slice a1 0 executions
    let sumFirst ← slice a0 executions a0.length
    let sumSecond ← slice a1 executions a1.length
    let c0 ← idx countFirst 0
    let c1 ← idx countSecond 0
    let dataCount := (c0 + c1) % modP
    let s0 ← idx sumFirst 0
    let s1 ← idx sumSecond 0
    let sumCount := (s0 + s1) % modP
    let _ ← forLoop (executions - 1) (fun i (_ : Unit) => do
      let alpha ← idx st.alphas i
      let tagCount := tagOf dataCount alpha
      let x0 ← idx countFirst (i + 1)
      let x1 ← idx countSecond (i + 1)
      if tagCount ≠ (x0 + x1) % modP then err "REJECT count"
      else do
        let tagSum := tagOf sumCount alpha
        let y0 ← idx sumFirst (i + 1)
        let y1 ← idx sumSecond (i + 1)
        if tagSum ≠ (y0 + y1) % modP then err "REJECT sum" else ok ()) ()
    divU32 sumCount dataCount
  else
    let d0 ← idx a0 0
    let a1 ← idx answers 1
    let d1 ← idx a1 0
    let data := (d0 + d1) % modP
    let _ ← forLoop (executions - 1) (fun i (_ : Unit) => do
      let alpha ← idx st.alphas i
      let tag := tagOf data alpha
      let x0 ← idx a0 (i + 1)
      let x1 ← idx a1 (i + 1)
      if tag ≠ (x0 + x1) % modP then err "REJECT" else ok ()) ()
    ok data

/-- lib/client/fss.go:74-81 `reconstructBytes` with lib/client/client.go:37-45 `decodeAnswer`. -/
def reconstructBytes (executions : Nat) (st : State) (answers : List (List Byte)) : Res U32 := do
  let decoded ← answers.mapM Utils.byteSliceToUint32Slice
  reconstruct executions st decoded

/-! ### A whole query -/

/-- The world in which a predicate query is run: the environments (block ciphers, fresh randomness), clocks and
scratch buffers of the client and of the two servers, and the client's randomness. -/
structure World where
  hash : List Byte → List Byte
  env : Env
  env0 : Nat → Env
  env1 : Nat → Env
  now0 : Nat → Int
  now1 : Nat → Int
  fuel : Nat
  rnd : Prg
  buf : List Byte
  buf0 : List Byte
  buf1 : List Byte
  r1 : List Byte
  r2 : List Byte

/-- lib/server/fss.go:27-40 `answerBytes` of server number `sn`, whose state is taken from the world. The gob
encoding of the query is not modelled: the server gets the message itself. -/
def World.serve (W : World) (sn : Byte) (ex : Nat) (db : KeyDB) (m : Msg) : Res (List Byte) := do
  let (a, _) ← if sn = 0 then answer W.hash W.env0 W.now0 0 db ex W.buf0 m
    else answer W.hash W.env1 W.now1 sn db ex W.buf1 m
  Utils.uint32SliceToByteSlice a

/-- lib/client/fss.go:21-45 `queryBytes`, one message per server, then 74-81 `reconstructBytes`
(cmd/grpc/client/main.go:243-262). `inOrder` tells whether the connections are enumerated in server order
(main.go:401-409 hands the `j`-th message to the `j`-th connection enumerated, and the connections are the values
of a Go map, so both orders occur). -/
def World.run (W : World) (ex : Nat) (db : KeyDB) (q : ClientFSS) (inOrder : Bool) : Res U32 := do
  let (ms, st, _, _) ← query W.env W.fuel ex W.rnd W.buf W.r1 W.r2 q 2
  let m0 ← idx ms (if inOrder then 0 else 1)
  let m1 ← idx ms (if inOrder then 1 else 0)
  let a0 ← W.serve 0 ex db m0
  let a1 ← W.serve 1 ex db m1
  reconstructBytes ex st [a0, a1]

end Verif.Predicate
