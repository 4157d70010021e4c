import Verif.Model.Rpc

/-! # Model of the life of the server process

cmd/grpc/server/main.go from the listener on, with cmd/grpc/sdnotify/sdnotify.go: the main goroutine, the operating system's
signals and the service manager around the query handling of `Model/Rpc`. The gRPC library is represented by its effects:
calls are accepted until `GracefulStop` begins, which returns when every accepted call has returned; `Serve` may fail at any
time before. The end of the main goroutine ends the process. -/

namespace Verif.Life
open Res

/-! ### Notifications -/

/-- What `SdNotify` finds: the variable `NOTIFY_SOCKET`, and the outcomes of unsetting it, of dialling and of writing. -/
structure Socket where
  env : Option String
  unset : Res Unit
  dial : Res Unit
  write : Res Unit

/-- cmd/grpc/sdnotify/sdnotify.go:58-86 `SdNotify`: the result, the variable afterwards, and what has been sent. -/
def sdNotify (k : Socket) (unsetEnvironment : Bool) (state : String) : Res Bool × Option String × List String :=
  if k.env.getD "" = "" then (ok false, k.env, [])
  else
    match (if unsetEnvironment then k.unset else ok ()) with
    | err m => (err m, k.env, [])
    | crash m => (crash m, k.env, [])
    | ok () =>
      let env := if unsetEnvironment then none else k.env
      match k.dial with
      | err m => (err m, env, [])
      | crash m => (crash m, env, [])
      | ok () =>
        match k.write with
        | err m => (err m, env, [])
        | crash m => (crash m, env, [])
        | ok () => (ok true, env, [state])

/-- cmd/grpc/sdnotify/sdnotify.go:33-35 `SdNotifyReady`. -/
def ready : String := "READY=1"

/-- cmd/grpc/sdnotify/sdnotify.go:37-39 `SdNotifyStopping`. -/
def stopping : String := "STOPPING=1"

/-! ### The process -/

/-- Where the main goroutine is. -/
inductive Pc where
  /-- before main.go:203 -/
  | starting
  /-- in the select of main.go:208 -/
  | waiting
  /-- main.go:211, a signal has been received -/
  | signalled
  /-- after `stopWorker`, main.go:212 -/
  | closed
  /-- in `GracefulStop`, main.go:213 -/
  | draining
  /-- after `GracefulStop` -/
  | drained
  /-- after main.go:218; the process is gone -/
  | exited
  /-- `log.Fatalf`, main.go:205, 210; the process is gone -/
  | fatal (msg : String)
deriving DecidableEq, Repr

/-- The process: the calls, the main goroutine, the channels `sigCh` and `errCh` of capacity one (main.go:175-177), and what
the service manager has been told. -/
structure State where
  rpc : Rpc.State
  pc : Pc
  signal : Bool
  serveErr : Option String
  told : List String
deriving DecidableEq, Repr

/-- The process after cmd/grpc/server/main.go:163-200. -/
def start : State := ⟨Rpc.start, .starting, false, none, []⟩

/-- The process has neither panicked nor ended. -/
def alive (s : State) : Bool :=
  !s.rpc.crashed && (match s.pc with
    | .exited => false
    | .fatal _ => false
    | _ => true)

/-- The library accepts calls: `GracefulStop` has not begun. -/
def accepting (s : State) : Bool :=
  alive s && (match s.pc with
    | .starting => true
    | .waiting => true
    | .signalled => true
    | .closed => true
    | _ => false)

/-- Steps decided outside of the process. -/
inductive Env : State → State → Prop where
  /-- A client calls `Query`. -/
  | arrive (s : State) (q : List Byte) : accepting s = true →
      Env s { s with rpc := { s.rpc with calls := s.rpc.calls ++ [Rpc.newCall q] } }
  /-- The context of a call is cancelled or expires. -/
  | cancel (s : State) (i : Nat) (c : Rpc.Call) : alive s = true → s.rpc.calls[i]? = some c →
      Env s { s with rpc := { s.rpc with calls := s.rpc.calls.set i { c with cancelled := true } } }
  /-- SIGINT or SIGTERM (main.go:176), or, in experiments, a request to the HTTP server (main.go:192-194): kept in `sigCh`,
  dropped (a request: blocked) if there is one already. -/
  | signal (s : State) : alive s = true → Env s { s with signal := true }
  /-- main.go:181-183: `Serve` fails. -/
  | serveFails (s : State) (m : String) : accepting s = true → s.serveErr = none → Env s { s with serveErr := some m }

/-- Steps of the process. -/
inductive Sys (work : List Byte → Res (List Byte)) : State → State → Prop where
  /-- A step of the calls or of the worker. -/
  | rpc (s : State) (r : Rpc.State) : alive s = true → Rpc.Sys work s.rpc r → Sys work s { s with rpc := r }
  /-- main.go:203: the service manager is told, or there is none. -/
  | ready (s : State) (k : Socket) (b : Bool) : alive s = true → s.pc = .starting → (sdNotify k false ready).1 = ok b →
      Sys work s { s with pc := .waiting, told := s.told ++ (sdNotify k false ready).2.2 }
  /-- main.go:204-206 -/
  | readyFails (s : State) (k : Socket) (m : String) : alive s = true → s.pc = .starting →
      (sdNotify k false ready).1 = err m →
      Sys work s { s with pc := .fatal ("failed to sdnotify: " ++ m), told := s.told ++ (sdNotify k false ready).2.2 }
  /-- main.go:209-210 -/
  | takeError (s : State) (m : String) : alive s = true → s.pc = .waiting → s.serveErr = some m →
      Sys work s { s with pc := .fatal ("failed to serve: " ++ m), serveErr := none }
  /-- main.go:211 -/
  | takeSignal (s : State) : alive s = true → s.pc = .waiting → s.signal = true →
      Sys work s { s with pc := .signalled, signal := false }
  /-- main.go:212, 294-296 `stopWorker` -/
  | close (s : State) : alive s = true → s.pc = .signalled →
      Sys work s { s with pc := .closed, rpc := { s.rpc with closed := true } }
  /-- main.go:213: `GracefulStop` begins. -/
  | refuse (s : State) : alive s = true → s.pc = .closed → Sys work s { s with pc := .draining }
  /-- main.go:213: `GracefulStop` returns. -/
  | drain (s : State) : alive s = true → s.pc = .draining → (∀ c ∈ s.rpc.calls, ∃ r, c.status = .returned r) →
      Sys work s { s with pc := .drained }
  /-- main.go:214-219: the outcome of the notification is dropped. -/
  | exit (s : State) (k : Socket) : alive s = true → s.pc = .drained →
      Sys work s { s with pc := .exited, told := s.told ++ (sdNotify k false stopping).2.2 }

/-- States reachable from the start. -/
inductive Reach (work : List Byte → Res (List Byte)) : State → Prop where
  | start : Reach work start
  | env (s s' : State) : Reach work s → Env s s' → Reach work s'
  | sys (s s' : State) : Reach work s → Sys work s s' → Reach work s'

end Verif.Life
