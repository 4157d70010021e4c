import Verif.Go

/-! # Model of the life of an experiment server

simulations/multi/server/server.go from the channels of line 147 on: the main goroutine, the operating system's signals, the
HTTP server whose every request asks the process to stop, and the calls of the clients, each in a goroutine of its own. The
gRPC library is represented by its effects: calls are accepted until `GracefulStop` begins, which returns when every accepted
call has returned or its client has given up. The HTTP library likewise: requests are accepted until `Shutdown` begins, which
returns when every handler has returned (its context has no deadline). The end of the main goroutine ends the process. -/

namespace Verif.Stop
open Res

/-- Where the main goroutine is. -/
inductive Pc where
  /-- in the select of server.go:173 -/
  | waiting
  /-- in `GracefulStop`, server.go:177 -/
  | draining
  /-- after `GracefulStop` and `lis.Close`, server.go:178 -/
  | drained
  /-- in `Shutdown`, server.go:179 -/
  | shutting
  /-- after server.go:180; the process is gone -/
  | exited
  /-- `log.Fatalf`, server.go:175; the process is gone -/
  | fatal (msg : String)
deriving DecidableEq, Repr

/-- A call of a client: simulations/multi/server/server.go:218-230 `Query`. The result is missing while `AnswerBytes` runs. -/
structure Call where
  query : List Byte
  result : Option (Res (List Byte))
  cancelled : Bool
deriving DecidableEq, Repr

/-- The handler of a request to the HTTP server, server.go:163-165: in its send to `sigCh`, or returned. -/
inductive Handler where
  | sending
  | returned
deriving DecidableEq, Repr

/-- The process: the calls, the HTTP requests, the main goroutine, the channels `sigCh` and `errCh` of capacity one
(server.go:148-150), and how many signals the operating system has sent. -/
structure State where
  calls : List Call
  requests : List Handler
  pc : Pc
  signal : Bool
  serveErr : Option String
  signals : Nat
  crashed : Bool
deriving DecidableEq, Repr

/-- The process when it comes to server.go:173. -/
def start : State := ⟨[], [], .waiting, false, none, 0, false⟩

/-- The process has neither panicked nor ended. -/
def alive (s : State) : Bool :=
  !s.crashed && (match s.pc with
    | .exited => false
    | .fatal _ => false
    | _ => true)

/-- The HTTP server accepts requests: `Shutdown` has not begun. -/
def listening (s : State) : Bool :=
  alive s && (match s.pc with
    | .waiting => true
    | .draining => true
    | .drained => true
    | _ => false)

/-- Steps decided outside of the process. -/
inductive Env : State → State → Prop where
  /-- A client calls `Query`. -/
  | call (s : State) (q : List Byte) : alive s = true → s.pc = .waiting →
      Env s { s with calls := s.calls ++ [⟨q, none, false⟩] }
  /-- The client of a call gives up. -/
  | cancel (s : State) (i : Nat) (c : Call) : alive s = true → s.calls[i]? = some c →
      Env s { s with calls := s.calls.set i { c with cancelled := true } }
  /-- SIGINT or SIGTERM (server.go:149): kept in `sigCh`, dropped if there is something in it already. -/
  | signal (s : State) : alive s = true → Env s { s with signal := true, signals := s.signals + 1 }
  /-- A request to the HTTP server. -/
  | request (s : State) : listening s = true → Env s { s with requests := s.requests ++ [.sending] }
  /-- server.go:154-156: `Serve` fails. -/
  | serveFails (s : State) (m : String) : alive s = true → s.serveErr = none → Env s { s with serveErr := some m }

/-- Steps of the process, when `work` is what `AnswerBytes` computes. -/
inductive Sys (work : List Byte → Res (List Byte)) : State → State → Prop where
  /-- server.go:222-229: the call returns an answer or an error. -/
  | answer (s : State) (i : Nat) (c : Call) : alive s = true → s.calls[i]? = some c → c.result = none →
      ¬ (work c.query).isCrash → Sys work s { s with calls := s.calls.set i { c with result := some (work c.query) } }
  /-- server.go:222: `AnswerBytes` panics; gRPC does not recover. -/
  | panics (s : State) (i : Nat) (c : Call) : alive s = true → s.calls[i]? = some c → c.result = none →
      (work c.query).isCrash → Sys work s { s with crashed := true }
  /-- server.go:164: a handler's send goes through when the channel is empty. -/
  | deliver (s : State) (i : Nat) : alive s = true → s.requests[i]? = some .sending → s.signal = false →
      Sys work s { s with requests := s.requests.set i .returned, signal := true }
  /-- server.go:174-175 -/
  | takeError (s : State) (m : String) : alive s = true → s.pc = .waiting → s.serveErr = some m →
      Sys work s { s with pc := .fatal ("failed to serve: " ++ m), serveErr := none }
  /-- server.go:176-177: `GracefulStop` begins. -/
  | takeSignal (s : State) : alive s = true → s.pc = .waiting → s.signal = true →
      Sys work s { s with pc := .draining, signal := false }
  /-- server.go:177-178: `GracefulStop` returns; the listener is closed already. -/
  | drain (s : State) : alive s = true → s.pc = .draining → (∀ c ∈ s.calls, c.result ≠ none ∨ c.cancelled = true) →
      Sys work s { s with pc := .drained }
  /-- server.go:179: `Shutdown` begins. -/
  | shut (s : State) : alive s = true → s.pc = .drained → Sys work s { s with pc := .shutting }
  /-- server.go:179-182: `Shutdown` returns. -/
  | exit (s : State) : alive s = true → s.pc = .shutting → (∀ h ∈ s.requests, h = .returned) →
      Sys work s { s with pc := .exited }

/-- States reachable from the start. -/
inductive Reach (work : List Byte → Res (List Byte)) : State → Prop where
  | start : Reach work start
  | env (s s' : State) : Reach work s → Env s s' → Reach work s'
  | sys (s s' : State) : Reach work s → Sys work s s' → Reach work s'

end Verif.Stop
