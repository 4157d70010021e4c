import Verif.Go

/-! # Model of the query handling of the gRPC server

cmd/grpc/server/main.go: concurrent `Query` calls, the channel of queries, the worker and its shutdown as a transition
system. One step is one communication on a channel, the cancellation of a call or the closing of the channel. The gRPC
library is represented by its effects: it runs each call in a goroutine of its own, cancels the context of a call at any
time, and lets a panic of a handler end the process. Logging is left out. -/

namespace Verif.Rpc
open Res

/-- What a call of `Query` returns (cmd/grpc/server/main.go:264-273). -/
inductive Reply where
  | answer (a : List Byte)
  | error (msg : String)
  | deadline
deriving DecidableEq, Repr

/-- Where a call of `Query` is: sending its query (262), waiting in the select (264), or returned. -/
inductive Status where
  | sending
  | waiting
  | returned (r : Reply)
deriving DecidableEq, Repr

/-- A call with its context and its two channels of capacity one (cmd/grpc/server/main.go:221-225, 256-262). -/
structure Call where
  query : List Byte
  status : Status
  cancelled : Bool
  answerCh : Option (List Byte)
  errorCh : Option String
deriving DecidableEq, Repr

/-- The worker: at the head of its loop, answering a call, or after its loop. -/
inductive Worker where
  | idle
  | busy (i : Nat)
  | stopped
deriving DecidableEq, Repr

/-- The server process. `queue` is the content of `queryChan`, as indices of calls. `sent` and `answered` record the
history: the calls in the order in which their queries entered the channel and in which they were answered. -/
structure State where
  calls : List Call
  queue : List Nat
  worker : Worker
  closed : Bool
  crashed : Bool
  sent : List Nat
  answered : List Nat
deriving DecidableEq, Repr

/-- The server after cmd/grpc/server/main.go:163-172. -/
def start : State := ⟨[], [], .idle, false, false, [], []⟩

/-- Capacity of `queryChan` (cmd/grpc/server/main.go:168). -/
def capacity : Nat := 10

/-- A new call (cmd/grpc/server/main.go:256-261). -/
def newCall (q : List Byte) : Call := ⟨q, .sending, false, none, none⟩

/-- Steps decided outside of the server. -/
inductive Env : State → State → Prop where
  /-- A client calls `Query`. (That the library refuses calls once `GracefulStop` has begun, main.go:213, is left out:
  the channel is closed before.) -/
  | arrive (s : State) (q : List Byte) : s.crashed = false → Env s { s with calls := s.calls ++ [newCall q] }
  /-- The context of a call is cancelled or expires. -/
  | cancel (s : State) (i : Nat) (c : Call) : s.crashed = false → s.calls[i]? = some c →
      Env s { s with calls := s.calls.set i { c with cancelled := true } }
  /-- A signal arrives: `stopWorker` closes the channel (cmd/grpc/server/main.go:211-212, 294-296). -/
  | close (s : State) : s.crashed = false → s.closed = false → Env s { s with closed := true }

/-- Steps of the server; `work` is `AnswerBytes` of the configured server. -/
inductive Sys (work : List Byte → Res (List Byte)) : State → State → Prop where
  /-- main.go:262: the query enters the channel if there is room. -/
  | send (s : State) (i : Nat) (c : Call) : s.crashed = false → s.calls[i]? = some c → c.status = .sending →
      s.closed = false → s.queue.length < capacity →
      Sys work s { s with calls := s.calls.set i { c with status := .waiting }, queue := s.queue ++ [i],
                          sent := s.sent ++ [i] }
  /-- main.go:262: sending on a closed channel panics, also if the sender was already blocked. -/
  | sendClosed (s : State) (i : Nat) (c : Call) : s.crashed = false → s.calls[i]? = some c → c.status = .sending →
      s.closed = true → Sys work s { s with crashed := true }
  /-- main.go:277: the worker receives; a closed channel is drained first. -/
  | take (s : State) (i : Nat) (rest : List Nat) : s.crashed = false → s.worker = .idle → s.queue = i :: rest →
      Sys work s { s with worker := .busy i, queue := rest }
  /-- main.go:277: the loop ends when the channel is closed and empty. -/
  | exit (s : State) : s.crashed = false → s.worker = .idle → s.queue = [] → s.closed = true →
      Sys work s { s with worker := .stopped }
  /-- main.go:279, 290: the answer is sent; this blocks while the channel is full. -/
  | answer (s : State) (i : Nat) (c : Call) (a : List Byte) : s.crashed = false → s.worker = .busy i →
      s.calls[i]? = some c → work c.query = ok a → c.answerCh = none →
      Sys work s { s with worker := .idle, calls := s.calls.set i { c with answerCh := some a },
                          answered := s.answered ++ [i] }
  /-- main.go:279-283: the error is sent; this blocks while the channel is full. -/
  | fail (s : State) (i : Nat) (c : Call) (e : String) : s.crashed = false → s.worker = .busy i →
      s.calls[i]? = some c → work c.query = err e → c.errorCh = none →
      Sys work s { s with worker := .idle, calls := s.calls.set i { c with errorCh := some e },
                          answered := s.answered ++ [i] }
  /-- main.go:279: a panic in `AnswerBytes` ends the process. -/
  | panics (s : State) (i : Nat) (c : Call) (e : String) : s.crashed = false → s.worker = .busy i →
      s.calls[i]? = some c → work c.query = crash e → Sys work s { s with crashed := true }
  /-- main.go:265-266 -/
  | recvAnswer (s : State) (i : Nat) (c : Call) (a : List Byte) : s.crashed = false → s.calls[i]? = some c →
      c.status = .waiting → c.answerCh = some a →
      Sys work s { s with calls := s.calls.set i { c with status := .returned (.answer a), answerCh := none } }
  /-- main.go:267-269 -/
  | recvError (s : State) (i : Nat) (c : Call) (e : String) : s.crashed = false → s.calls[i]? = some c →
      c.status = .waiting → c.errorCh = some e →
      Sys work s { s with calls := s.calls.set i { c with status := .returned (.error e), errorCh := none } }
  /-- main.go:270-272 -/
  | recvDone (s : State) (i : Nat) (c : Call) : s.crashed = false → s.calls[i]? = some c → c.status = .waiting →
      c.cancelled = true → Sys work s { s with calls := s.calls.set i { c with status := .returned .deadline } }

/-- States reachable from the start. -/
inductive Reach (work : List Byte → Res (List Byte)) : State → Prop where
  | start : Reach work start
  | env (s s' : State) : Reach work s → Env s s' → Reach work s'
  | sys (s s' : State) : Reach work s → Sys work s s' → Reach work s'

end Verif.Rpc
