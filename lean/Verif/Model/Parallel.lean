import Verif.Go

/-! # Goroutines that each send one result

lib/database/elliptic.go:36-54 and lib/server/dh.go:30-49: one goroutine per chunk, each with its own channel of capacity
one, and a main routine that receives from the channels in order. One step of the transition system is one goroutine
finishing and sending, one goroutine panicking (which ends the program), or the main routine receiving. -/

namespace Verif.Parallel
open Res

/-- A goroutine with its channel: still computing, value in the channel, value received. -/
inductive Worker (β : Type _) where
  | running
  | sent (b : β)
  | taken

/-- Goroutines, values received so far, and whether the program has panicked. -/
structure State (β : Type _) where
  workers : List (Worker β)
  acc : List β
  crashed : Bool

/-- All `n` goroutines started (elliptic.go:39-48, dh.go:33-42). -/
def start {β : Type _} (n : Nat) : State β := ⟨List.replicate n .running, [], false⟩

/-- One step; `work i` is what goroutine `i` computes. -/
inductive Step {β : Type _} (work : Nat → Res β) : State β → State β → Prop where
  /-- elliptic.go:90, dh.go:73: sending on a channel of capacity one does not block. -/
  | finish (s : State β) (i : Nat) (b : β) : s.crashed = false → s.workers[i]? = some .running → work i = ok b →
      Step work s { s with workers := s.workers.set i (.sent b) }
  /-- A panic in a goroutine ends the program. -/
  | panics (s : State β) (i : Nat) : s.crashed = false → s.workers[i]? = some .running → (¬ ∃ b, work i = ok b) →
      Step work s { s with crashed := true }
  /-- elliptic.go:50-51, dh.go:45-46: the main routine receives from the channels in order. -/
  | receive (s : State β) (b : β) : s.crashed = false → s.workers[s.acc.length]? = some (.sent b) →
      Step work s { s with workers := s.workers.set s.acc.length .taken, acc := s.acc ++ [b] }

/-- States reachable from the start. -/
inductive Reach {β : Type _} (work : Nat → Res β) (n : Nat) : State β → Prop where
  | start : Reach work n (start n)
  | step (s s' : State β) : Reach work n s → Step work s s' → Reach work n s'

/-- What the program text computes if the goroutines are run one after the other. -/
def gather {β : Type _} (n : Nat) (work : Nat → Res β) : Res (List β) := (List.range n).mapM work

end Verif.Parallel
