import Verif.Model.Predicate

/-! # Model of queries handled at the same time by one predicate server

The experiment server (simulations/multi/server/server.go:205-217) calls `AnswerBytes` in the goroutine gRPC starts for
each call, and all calls share one `Fss` value (lib/server/predicate_apir.go:25-34, predicate_pir.go:20-29): `EvaluatePF`
has a value receiver, but the slices `Temp`, `Out` and `OutConvertBlock` of the copy are the same arrays. Here
`EvaluatePF` is a sequence of small steps on these arrays, and the steps of the calls are interleaved by a schedule.
Steps are executed one after the other, each seeing the effect of those before (sequential consistency); the Go memory
model promises no more than this, and less for programs with data races. The decoding of the query and the encoding of
the answer touch nothing that is shared and are left out. -/

namespace Verif.Shared
open Res Verif.Field Verif.Fss Verif.Query Verif.Predicate

/-- The arrays behind `Temp`, `Out` and `OutConvertBlock` (lib/fss/common.go:15-24). -/
structure Mem where
  temp : List Byte
  out : List Byte
  ocb : List Byte
deriving DecidableEq

/-- lib/fss/server.go:27-29: the arrays of a new instance for `n` elements. -/
def newMem (n : Nat) : Mem := ⟨List.replicate 16 0, List.replicate 64 0, initFss n⟩

/-- Where a call of `EvaluatePF` is. -/
inductive Pc where
  /-- head of the loop over the bits (lib/fss/server.go:42) -/
  | level
  /-- lib/fss/common.go:60-62, called from server.go:51: encrypt block `j` into `Temp` -/
  | encrypt (j : Nat)
  /-- lib/fss/common.go:64: block `j` of `Out` -/
  | mix (j : Nat)
  /-- lib/fss/server.go:55-64: byte `j` of `Out`, with the counter of line 54 -/
  | correct (j count : Nat)
  /-- lib/fss/server.go:67-73 -/
  | pick
  /-- lib/fss/common.go:60-62, called from common.go:70 -/
  | encryptFinal (j : Nat)
  /-- lib/fss/common.go:64: block `j` of `OutConvertBlock` -/
  | mixFinal (j : Nat)
  /-- lib/fss/common.go:71: element `j` (lib/field/field.go:93-101) -/
  | elem (j : Nat)
  /-- lib/fss/server.go:78-85 -/
  | finish
deriving DecidableEq

/-- A call of `EvaluatePF` with its local variables: `sCurr`, `tCurr`, the number `i` of the level, `tmp`, and the slice
`out` of the caller (lib/fss/server.go:34-41), which belongs to the request. -/
structure Eval where
  x : List Bool
  s : List Byte
  t : Byte
  i : Nat
  tmp : List U32
  out : List U32
  pc : Pc
deriving DecidableEq

/-- lib/fss/server.go:36-42: a call that has not yet touched the shared arrays. -/
def Eval.start (k : Key) (x : List Bool) (out : List U32) : Eval :=
  ⟨x, k.sInit.take 16 ++ List.replicate (16 - k.sInit.length) 0, k.tInit, 0, List.replicate out.length 0, out, .level⟩

/-- What a step of a call leads to. -/
inductive Next where
  | go (e : Eval)
  | done (out : List U32)
deriving DecidableEq

/-- One step of `EvaluatePF(serverNum, k, x, out)`, lib/fss/server.go:34-86 with common.go:59-72. Each step reads or
writes one of the shared arrays at most once, except that `correct` and `elem` read and write one byte or word in one
step. -/
def evalStep (env : Env) (sn : Byte) (k : Key) (e : Eval) (m : Mem) : Res (Next × Mem) :=
  match e.pc with
  | .level =>
    if e.i < e.x.length then ok (.go { e with pc := .encrypt 0 }, m) else ok (.go { e with pc := .encryptFinal 0 }, m)
  | .encrypt j =>
    if j < 3 then
      if 4 ≤ j then crash "index out of range"
      else if e.s.length < 16 then crash "crypto/aes: input not full block"
      else ok (.go { e with pc := .mix j }, { m with temp := env.E j (e.s.take 16) })
    else ok (.go { e with pc := .correct 0 0 }, m)
  | .mix j => do
    let window ← slice m.out (j * 16) m.out.length
    let out ← copyAt m.out (j * 16) (fastxor window m.temp e.s)
    ok (.go { e with pc := .encrypt (j + 1) }, { m with out := out })
  | .correct j count =>
    if j < 16 * 2 + 2 then do
      let count := if j = 16 + 1 then 0 else if j = 16 * 2 + 1 then 16 + 1 else count
      let o ← idx m.out j
      let cw ← idx k.cw e.i
      let c ← idx cw count
      let out ← setAt m.out j (o ^^^ (e.t * c))
      ok (.go { e with pc := .correct (j + 1) (count + 1) }, { m with out := out })
    else ok (.go { e with pc := .pick }, m)
  | .pick => do
    let xi ← (if e.i ≠ maxBits then idx e.x e.i else ok false)
    let s ← (if xi then slice m.out 17 33 else slice m.out 0 16)
    let o ← idx m.out (if xi then 33 else 16)
    ok (.go { e with s := s, t := o % 2, i := e.i + 1, pc := .level }, m)
  | .encryptFinal j =>
    if j < e.out.length / 4 then
      if 4 ≤ j then crash "index out of range"
      else if e.s.length < 16 then crash "crypto/aes: input not full block"
      else ok (.go { e with pc := .mixFinal j }, { m with temp := env.E j (e.s.take 16) })
    else ok (.go { e with pc := .elem 0 }, m)
  | .mixFinal j => do
    let window ← slice m.ocb (j * 16) m.ocb.length
    let ocb ← copyAt m.ocb (j * 16) (fastxor window m.temp e.s)
    ok (.go { e with pc := .encryptFinal (j + 1) }, { m with ocb := ocb })
  | .elem j =>
    if j < e.tmp.length then do
      let chunk ← slice m.ocb (j * 4) ((j + 1) * 4)
      let (v, chunk) ← toElement env.fresh env.fuel chunk
      let ocb ← copyAt m.ocb (j * 4) chunk
      let tmp ← setAt e.tmp j v
      ok (.go { e with tmp := tmp, pc := .elem (j + 1) }, { m with ocb := ocb })
    else ok (.go { e with pc := .finish }, m)
  | .finish => do
    let out ← evalOut sn e.tmp k.finalCW e.t e.out
    ok (.done out, m)

/-! ### The handler of a query as a sequence of calls of `EvaluatePF` -/

/-- A computation that calls `EvaluatePF`: it has returned, or it calls with the environment of iteration `i`, the input
`x` and the slice `out`, and continues with the new contents of `out`. -/
inductive Prog (α : Type) where
  | ret (r : Res α)
  | call (i : Nat) (x : List Bool) (out : List U32) (k : List U32 → Prog α)

/-- Sequencing. -/
def Prog.bind {α β : Type} : Prog α → (α → Prog β) → Prog β
  | .ret (.ok a), f => f a
  | .ret (.err m), _ => .ret (.err m)
  | .ret (.crash m), _ => .ret (.crash m)
  | .call i x out k, f => .call i x out (fun v => (k v).bind f)

/-- `for i := 0; i < n; i++ { s = body(i, s) }` -/
def Prog.loop {σ : Type} : Nat → (Nat → σ → Prog σ) → σ → Prog σ
  | 0, _, s => .ret (ok s)
  | n + 1, body, s => (Prog.loop n body s).bind (body n)

/-- The body of the counting loops of lib/server/fss.go:48-58, 61-67, 70-79, 85-102 (see `Predicate.countLoop`); the
state is `out` and `tmp`. -/
def countBody (db : KeyDB) (sel : KeyInfo → Res (Option (List Bool))) (i : Nat) (s : List U32 × List U32) :
    Prog (List U32 × List U32) :=
  match (do let ki ← idx db.keys i; sel ki) with
  | ok none => .ret (ok s)
  | ok (some id) => .call i id s.2 fun tmp => .ret (do
      let out ← accumulate s.1 tmp
      ok (out, tmp))
  | err m => .ret (err m)
  | crash m => .ret (crash m)

/-- The body of the loop of lib/server/fss.go:108-133 (see `Predicate.avgLoop`); the state is `out`, `tmp` and `sum`. -/
def avgBody (now : Nat → Int) (db : KeyDB) (sel : KeyInfo → Res (Option (List Bool))) (i : Nat)
    (s : List U32 × List U32 × List U32) : Prog (List U32 × List U32 × List U32) :=
  match (do let ki ← idx db.keys i; let id ← sel ki; ok (ki, id)) with
  | ok (_, none) => .ret (ok s)
  | ok (ki, some id) => .call i id s.2.1 fun tmp => .ret (
      let diffYears := now i - ki.creation.year
      if diffYears < 0 then ok (s.1, tmp, s.2.2)
      else do
        let (out, sum) ← accumulateAvg s.1 s.2.2 tmp diffYears
        ok (out, tmp, sum))
  | err m => .ret (err m)
  | crash m => .ret (crash m)

/-- lib/server/fss.go:42-138 `answer`, as `Predicate.answer`, but with the calls of `EvaluatePF` left open. -/
def handler (hash : List Byte → List Byte) (now : Nat → Int) (db : KeyDB) (n : Nat) (q : Msg) : Prog (List U32) :=
  let zero := List.replicate n (0 : U32)
  let count := fun sel => (Prog.loop db.numColumns (countBody db sel) (zero, zero)).bind fun s => .ret (ok s.1)
  if !q.info.and && !q.info.avg && !q.info.sum then
    match q.info.target with
    | 0 => count (selEmail hash q.info)
    | 2 => count selAlgo
    | 1 => count selCreation
    | _ => .ret (crash "not yet implemented")
  else if q.info.and && !q.info.avg && !q.info.sum then count (selAnd hash q.info)
  else if q.info.and && q.info.sum && !q.info.avg then .ret (crash "sum not implemented")
  else if q.info.and && q.info.avg && !q.info.sum then
    (Prog.loop db.numColumns (avgBody now db (selEmail hash q.info)) (zero, zero, zero)).bind fun s =>
      .ret (ok (s.1 ++ s.2.2))
  else .ret (crash "query not recognized")

/-! ### The server process -/

/-- A query being handled, with the environments (block ciphers, fresh randomness) and the clock of its iterations. -/
structure Request where
  msg : Msg
  env : Nat → Env
  now : Nat → Int

/-- The server: simulations/multi/server/server.go:110-140 with the numbers of lib/server/predicate_apir.go:25-34 (`n` = 5)
or predicate_pir.go:20-29 (`n` = 1). -/
structure Server where
  hash : List Byte → List Byte
  sn : Byte
  db : KeyDB
  n : Nat

/-- The goroutine of a query (simulations/multi/server/server.go:205-217): it has returned, or it is in a call of
`EvaluatePF`. What it does between two calls is local and is part of the step that returns from a call. -/
inductive Thread where
  | returned (r : Res (List U32))
  | running (i : Nat) (e : Eval) (k : List U32 → Prog (List U32))

/-- Run a handler up to its next call. -/
def enter (key : Key) : Prog (List U32) → Thread
  | .ret r => .returned r
  | .call i x out k => .running i (Eval.start key x out) k

/-- The goroutine of a request when it starts. -/
def Server.thread (S : Server) (r : Request) : Thread := enter r.msg.key (handler S.hash r.now S.db S.n r.msg)

/-- The process: the requests with their goroutines, and the shared arrays. -/
structure State where
  threads : List (Request × Thread)
  mem : Mem

/-- The process when the requests `rs` have been received. That a request may be received later is covered: its goroutine
need not be scheduled before. -/
def Server.init (S : Server) (m : Mem) (rs : List Request) : State := ⟨rs.map fun r => (r, S.thread r), m⟩

/-- The goroutine has panicked. -/
def Thread.panicked : Thread → Bool
  | .returned (.crash _) => true
  | _ => false

/-- A goroutine has panicked: gRPC does not recover, the process has ended. -/
def State.dead (s : State) : Bool := s.threads.any fun p => p.2.panicked

/-- One step of a goroutine. -/
def threadStep (sn : Byte) (r : Request) (t : Thread) (m : Mem) : Thread × Mem :=
  match t with
  | .returned a => (.returned a, m)
  | .running i e k =>
    match evalStep (r.env i) sn r.msg.key e m with
    | ok (.go e', m') => (.running i e' k, m')
    | ok (.done out, m') => (enter r.msg.key (k out), m')
    | err msg => (.returned (err msg), m)
    | crash msg => (.returned (crash msg), m)

/-- Goroutine `i` does one step, unless the process has ended. -/
def Server.step (S : Server) (i : Nat) (s : State) : State :=
  if s.dead then s else
    match s.threads[i]? with
    | none => s
    | some (r, t) =>
      let (t', m') := threadStep S.sn r t s.mem
      ⟨s.threads.set i (r, t'), m'⟩

/-- The process under a schedule: the numbers of the goroutines in the order of their steps. -/
def Server.run (S : Server) : List Nat → State → State
  | [], s => s
  | i :: is, s => S.run is (S.step i s)

/-- simulations/multi/server/server.go:205-217 and lib/server/fss.go:27-40 for a request that is alone: `answer` with
the scratch buffer `buf`. -/
def Server.alone (S : Server) (buf : List Byte) (r : Request) : Res (List U32) := do
  let (a, _) ← answer S.hash r.env r.now S.sn S.db S.n buf r.msg
  ok a

/-- A server that handles its queries one after the other, like the worker of cmd/grpc/server/main.go:276-292: the
answers, with the scratch buffer handed from query to query. A panic ends the process. -/
def Server.inTurn (S : Server) : List Byte → List Request → Res (List (List U32))
  | _, [] => ok []
  | buf, r :: rs => do
    let (a, buf) ← answer S.hash r.env r.now S.sn S.db S.n buf r.msg
    let rest ← S.inTurn buf rs
    ok (a :: rest)

end Verif.Shared
