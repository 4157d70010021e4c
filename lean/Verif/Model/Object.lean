import Verif.Model.MerklePir
import Verif.Model.Lwe
import Verif.Model.Dh
import Verif.Model.Predicate

/-! # Client objects and the calls made on them

The other models give the state from a query straight to the reconstruction that belongs to it. In the code both are
methods of one object that keeps the state in a field: any caller may make any sequence of calls on it. Here the
clients are objects. A panic is taken to be caught by the caller, who goes on using the object (`log.Fatal` ends the
program, so that nothing follows it; the model lets the calls go on). The random source and the DPF library are
outside the object: what a query gets from them comes with the call. -/

namespace Verif.Object
open Res

/-- lib/client/client.go:15-18 `Client` and the single-server clients: an object of type `O` with two methods that may
change it. -/
structure Client (O Q M A R : Type) where
  new : O
  query : O → Q → O × Res M
  reconstruct : O → A → O × Res R

/-- A method call. -/
inductive Call (Q A : Type) where
  | query (q : Q)
  | reconstruct (a : A)

variable {O Q M A R : Type}

/-- The object after a call. -/
def Client.step (c : Client O Q M A R) (o : O) : Call Q A → O
  | .query q => (c.query o q).1
  | .reconstruct a => (c.reconstruct o a).1

/-- The object after a sequence of calls. -/
def Client.after (c : Client O Q M A R) (calls : List (Call Q A)) : O := calls.foldl c.step c.new

/-- One lookup with an object: a query, the reply `server` gives to the messages, the reconstruction (simulations/
simul.go:213-243, 256-283 and 296-337 do so again and again with one object). -/
def Client.lookup (c : Client O Q M A R) (o : O) (q : Q) (server : M → Res A) : Res R := do
  let m ← (c.query o q).2
  let a ← server m
  (c.reconstruct (c.query o q).1 a).2

/-! ### Multi-server point client -/

/-- A call of lib/client/pir_point.go:46 `Query`, with the keys the library generates and the bytes the random source
delivers during the call. -/
structure PointQuery where
  dpf : Point.Dpf
  read : Nat → Res (List Byte)
  index : Int
  numServers : Int

/-- lib/client/pir_point.go:46-68 `Query`: line 52 assigns the state before the messages are made. -/
def pointQuery (info : Database.Info) (o : Option Point.State) (q : PointQuery) : Option Point.State × Res (List (List Byte)) :=
  if Point.invalidQueryInputsIT q.index q.numServers then (o, crash "invalid query inputs") else
  match Database.vectorToMatrixIndices q.index info.numColumns with
  | ok (ix, iy) => (some ⟨ix, iy⟩,
      if q.numServers = 2 then do
        let (k0, k1) ← q.dpf.gen (Point.toU64 iy) (Point.bitsLen info.numColumns)
        ok [k0, k1]
      else Point.secretShare q.read info.numColumns iy q.numServers)
  | err m => (o, err m)
  | crash m => (o, crash m)

/-- lib/client/pir_point.go:70-78 `ReconstructBytes`, `Reconstruct`. Before the first query the state is nil, which
client.go:83 notices at the first answer. -/
def pointReconstruct (H : List Byte → List Byte) (info : Database.Info) (o : Option Point.State)
    (answers : List (List Byte)) : Option Point.State × Res (List Byte) :=
  (o, match o with
    | some st => MerklePir.reconstructPIR H answers info st
    | none => if answers = [] then MerklePir.reconstructPIR H [] info ⟨0, 0⟩ else crash "nil pointer dereference")

/-- lib/client/pir_point.go:20-35 `PIR`, `NewPIR`. -/
def point (H : List Byte → List Byte) (info : Database.Info) :
    Client (Option Point.State) PointQuery (List (List Byte)) (List (List Byte)) (List Byte) :=
  ⟨none, pointQuery info, pointReconstruct H info⟩

/-! ### Group scheme -/

/-- A call of lib/client/dh.go:39 `QueryBytes` with the two scalars drawn (line 43). -/
structure DhQuery where
  r : Int
  t : Int
  index : Int

/-- lib/client/dh.go:14-18 `DH` (for the check in `NewDH` see `Dh.newDH`). Line 62 assigns the state after the only step
that can panic; line 75 reads it. -/
def dh {G : Type} [AddCommGroup G] [DecidableEq G] (g : Dh.Grp G) (info : Dh.Info) :
    Client (Option (Dh.State G)) DhQuery (List Byte) (List Byte) Byte where
  new := none
  query o q := match Dh.queryBytes g info q.r q.t q.index with
    | ok (m, st) => (some st, ok m)
    | err m => (o, err m)
    | crash m => (o, crash m)
  reconstruct o a := (o, match o with
    | some st => Dh.reconstructBytes g info st a
    | none => crash "nil pointer dereference")

/-! ### LWE schemes -/

/-- A call of lib/client/lwe.go:68 `QueryBytes` (lwe128.go:69) with the coins drawn. -/
structure LweQuery where
  coins : Lwe.Coins
  index : Nat

/-- lib/client/lwe.go:44-51, lwe128.go:45-52: the state that a query assigns. -/
def lweState {w : Nat} (S : Lwe.Scheme w) (aesctr : List Byte → Nat → Byte) (p : Matrix.Params) (digest : Matrix.Mat w)
    (coins : Lwe.Coins) (i j : Nat) (t : BitVec w) : Lwe.State w :=
  ⟨Matrix.seedMatrix aesctr w S.k p.seedA p.n p.l, digest, Matrix.ofRandom w S.k 1 p.n coins.sBytes, i, j, t⟩

/-- lib/client/lwe.go:39-66 `Query`, lwe128.go:40-67: the state is assigned before the query is computed. -/
def lweQuery {w : Nat} (S : Lwe.Scheme w) (aesctr : List Byte → Nat → Byte) (p : Matrix.Params) (digest : Matrix.Mat w)
    (o : Option (Lwe.State w)) (coins : Lwe.Coins) (i j : Nat) : Option (Lwe.State w) × Res (Matrix.Mat w) :=
  match (Matrix.ofRandom w S.k 1 1 coins.tBytes).get 0 0 with
  | ok t => (some (lweState S aesctr p digest coins i j t), do
      let (_, q) ← Lwe.query S aesctr p digest coins i j
      ok q)
  | err m => (o, err m)
  | crash m => (o, crash m)

/-- lib/client/lwe.go:15-20 `LWE`, lwe128.go:16-21 `LWE128`, with `QueryBytes` and `ReconstructBytes`. -/
def lwe {w : Nat} (S : Lwe.Scheme w) (aesctr : List Byte → Nat → Byte) (p : Matrix.Params) (numColumns : Nat)
    (digest : Matrix.Mat w) : Client (Option (Lwe.State w)) LweQuery (List Byte) (List Byte) U32 where
  new := none
  query o q := if numColumns = 0 then (o, crash "integer divide by zero") else
    ((lweQuery S aesctr p digest o q.coins (q.index / numColumns) (q.index % numColumns)).1,
      (lweQuery S aesctr p digest o q.coins (q.index / numColumns) (q.index % numColumns)).2 >>= S.toBytes)
  reconstruct o a := (o, do
    let m ← S.ofBytes a
    match o with
    | some st => Lwe.reconstruct S p st m
    | none => crash "nil pointer dereference")

/-- lib/client/lwe.go:74-91 `Reconstruct`, lwe128.go:75-92: line 76 subtracts from the matrix that the caller handed in.
Returns what that matrix holds afterwards, and the result. -/
def lweReconstruct {w : Nat} (S : Lwe.Scheme w) (p : Matrix.Params) (st : Lwe.State w) (answers : Matrix.Mat w) :
    Matrix.Mat w × Res U32 :=
  match S.mul st.secret st.digest >>= fun std => answers.sub std with
  | ok d => (d, Lwe.reconstruct S p st answers)
  | err m => (answers, err m)
  | crash m => (answers, crash m)

/-- A call of lib/client/amplify.go:40 `QueryBytes` with the coins of the base clients. -/
structure AmplifyQuery where
  coins : List Lwe.Coins
  index : Nat

/-- lib/client/amplify.go:32-38 `Query`: the base clients are asked one after the other; a panic leaves those after it
untouched. There is one base client per entry of `coins`. -/
def amplifyQuery (aesctr : List Byte → Nat → Byte) (p : Matrix.Params) (digest : Matrix.Mat 32) (i j : Nat) :
    List (Option (Lwe.State 32)) → List Lwe.Coins → List (Option (Lwe.State 32)) × Res (List (Matrix.Mat 32))
  | o :: os, c :: cs =>
    match lweQuery Lwe.lwe32 aesctr p digest o c i j with
    | (o', ok m) =>
      ((o' :: (amplifyQuery aesctr p digest i j os cs).1), do
        let ms ← (amplifyQuery aesctr p digest i j os cs).2
        ok (m :: ms))
    | (o', err e) => (o' :: os, err e)
    | (o', crash e) => (o' :: os, crash e)
  | os, _ => (os, ok [])

/-- lib/client/amplify.go:48-61 `Reconstruct`: every base client reads its own state. -/
def amplifyReconstruct (p : Matrix.Params) (os : List (Option (Lwe.State 32))) (answers : List (Matrix.Mat 32)) : Res U32 := do
  let outputs ← forLoop os.length (fun i outputs => do
    let a ← idx answers i
    let o ← idx os i
    let b ← match o with
      | some st => Lwe.repetition p st a
      | none => crash "nil pointer dereference"
    setAt outputs i b) (List.replicate os.length 0)
  Ecc.decode outputs

/-- lib/client/amplify.go:13-30 `Amplify`, `NewAmplify`, with `QueryBytes` and `ReconstructBytes`; `k` base clients. -/
def amplify (aesctr : List Byte → Nat → Byte) (p : Matrix.Params) (numColumns : Nat) (digest : Matrix.Mat 32) (k : Nat) :
    Client (List (Option (Lwe.State 32))) AmplifyQuery (List Byte) (List Byte) U32 where
  new := List.replicate k none
  query o q := if numColumns = 0 then (o, crash "integer divide by zero") else
    ((amplifyQuery aesctr p digest (q.index / numColumns) (q.index % numColumns) o q.coins).1,
      (amplifyQuery aesctr p digest (q.index / numColumns) (q.index % numColumns) o q.coins).2 >>= Matrix.matricesToBytes)
  reconstruct o a := (o, Matrix.bytesToMatrices a >>= amplifyReconstruct p o)

/-! ### Predicate clients -/

/-- A call of lib/client/fss.go:47 `query`: the query, the position of the random source, the randomness of the key
generation and the fresh randomness `toElement` falls back to (with the bound on its re-sampling loop). -/
structure PredicateQuery where
  query : Query.ClientFSS
  numServers : Int
  rnd : Rand.Prg
  r1 : List Byte
  r2 : List Byte
  fresh : Nat → U32
  tries : Nat

/-- lib/client/fss.go:16-23 `clientFSS`: the state and `OutConvertBlock` of `Fss`. -/
structure Predicates where
  state : Option Predicate.State
  buf : List Byte

/-- lib/client/fss.go:47-72 `query`: line 53 assigns the state before the keys are generated. A key generation that
panics does so before it touches the buffer. The gob encoding of the messages is not modelled. -/
def predicateQuery (E : Nat → List Byte → List Byte) (fuel executions : Nat) (o : Predicates) (q : PredicateQuery) :
    Predicates × Res (List Predicate.Msg) :=
  if q.numServers ≠ 2 then (o, crash "invalid query inputs") else
  match Predicate.drawKeys fuel executions q.rnd with
  | ok (st, _) =>
    match Fss.generateTreePF ⟨E, q.fresh, q.tries⟩ o.buf q.r1 q.r2 q.query.input st.a with
    | ok (k0, k1, buf) => (⟨some st, buf⟩, ok [⟨q.query.info, k0⟩, ⟨q.query.info, k1⟩])
    | err m => (⟨some st, o.buf⟩, err m)
    | crash m => (⟨some st, o.buf⟩, crash m)
  | err m => (o, err m)
  | crash m => (o, crash m)

/-- lib/client/predicate_apir.go:20-34 and predicate_pir.go:18-32 with lib/client/fss.go:74-135 `reconstructBytes`. A nil
state, which is only noticed when the first tag is checked, is written as a state without keys. -/
def predicate (E : Nat → List Byte → List Byte) (fuel executions : Nat) :
    Client Predicates PredicateQuery (List Predicate.Msg) (List (List Byte)) U32 where
  new := ⟨none, Fss.initFss executions⟩
  query o q := predicateQuery E fuel executions o q
  reconstruct o a := (o, Predicate.reconstructBytes executions (o.state.getD ⟨[], []⟩) a)

end Verif.Object
