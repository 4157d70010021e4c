import Verif.Spec.Deploy
import Verif.Model.Rpc

/-! # Specification vocabulary for servers under concurrent calls -/

namespace Verif.Deploy.Spec
open Res Verif.Client

/-- In some state that the process of this server can reach, whatever other clients do at the same time, a call with the
query `q` has returned the answer `b`. -/
def Returns (R : Running) (q b : List Byte) : Prop :=
  ∃ (s : Rpc.State) (i : Nat) (c : Rpc.Call), Rpc.Reach R.answer s ∧ s.calls[i]? = some c ∧ c.query = q ∧
    c.status = .returned (.answer b)

/-- The servers seen through a network behind which these processes run: a connection or call may fail for whatever reason,
but what a call returns, a process has returned. -/
structure Behind (running : List Running) (net : Net) : Prop where
  dial : ∀ a, net.dial a = (network running).dial a ∨ ∃ m, net.dial a = err m
  info : ∀ a, net.info a = (network running).info a ∨ ∃ m, net.info a = err m
  answer : ∀ a q, (∃ m, net.answer a q = err m) ∨
    ∃ R b, running.find? (fun R => R.addr = a) = some R ∧ net.answer a q = ok b ∧ Returns R q b

/-- The three programs show this armoured key or end with a message or a panic. -/
structure ShowKeyOrEnd (L : Lib) (W : Predicate.World) (gob : Predicate.Msg → List Byte) (mk : Int → Query.Time) (net : Net)
    (S : Schedule) (servers : List String) (id : String) (armored : List Byte) : Prop where
  commandLine : servers.Nodup → ∀ (f : Flags) (typed : String), f.scheme = "pointPIR" ∨ f.scheme = "pointVPIR" →
    (f.id = id ∨ f.id = "" ∧ typed = id) →
    main L W gob mk net S servers f typed = ok (.key armored) ∨ (main L W gob mk net S servers f typed).isCrash
  interactive : downloadKey L net S servers id = ok (.result armored) ∨ (downloadKey L net S servers id).isCrash
  web : ∀ req : Cmd.Request, req.parse = ok () → req.value "email" = id →
    handleRetrieve L net S servers req = ok (.body armored) ∨ (handleRetrieve L net S servers req).isCrash

/-- A program ends with a message or a panic, or has the outcome it has when it is the only client. -/
def SameOrEnd {α : Type} (r alone : Res α) : Prop := r = alone ∨ r.isCrash

/-- A query that a client program sends to look up some identifier at a server that says this about its database, with
random bytes of its own; `n` is the number of servers it knows. -/
def LookupQuery (L : Lib) (n : Nat) (info : Cmd.DbInfo) (q : List Byte) : Prop :=
  ∃ (read : Nat → Res (List Byte)) (id : Pgp.Str) (qs : List (List Byte)) (st : Point.State),
    (∀ n, ∃ r, read n = ok r ∧ r.length = n) ∧
    lookupQueries { L with read := read } n (pointInfo info) id = ok (qs, st) ∧ q ∈ qs

end Verif.Deploy.Spec
