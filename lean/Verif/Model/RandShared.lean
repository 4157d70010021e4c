import Verif.Model.Rand
import Mathlib.Data.Nat.Size

/-! # Model of the random source shared by the goroutines of a process

lib/utils/rand.go:36-51 and 119-156: one buffered generator `bufPrgReader` and one mutex `prgMutex` for the whole
process. Calls are sequences of small steps, and the steps of different goroutines are interleaved by an arbitrary
schedule. A panic ends the call of the goroutine; what is modelled is the case where the goroutine (or the HTTP server it
runs in) recovers from it and goes on with its next call, otherwise the process ends. -/

namespace Verif.RandShared
open Verif.Rand

/-- The calls a goroutine can make: `MathRand().Uint64()`, `MathRand().Int63()` (lib/utils/rand.go:49-51, 127-148),
`RandInt(m)` (lines 42-47) and `MathRand().Seed(..)` (lines 150-152). The other methods of `mrand.Rand` are made of the
first two. -/
inductive Call where
  | u64
  | i63
  | int (m : Int)
  | seed
deriving DecidableEq, Repr

/-- How a call ends. -/
inductive Reply where
  | value (v : Nat)
  | panic
deriving DecidableEq, Repr

/-- Go's `crypto/rand.Int`, called at lib/utils/rand.go:120: the number of bytes of a candidate, `(bitLen + 7) / 8` with
`bitLen = (max - 1).BitLen()`. Read from the source of Go's standard library; it is not part of /repo. -/
def intBytes (m : Nat) : Nat := (Nat.size (m - 1) + 7) / 8

/-- Go's `crypto/rand.Int`: the mask of the first byte, `uint8(int(1<<b) - 1)` with `b = bitLen % 8`, or 8 if that is 0. -/
def topMask (m : Nat) : Byte :=
  let b := if Nat.size (m - 1) % 8 = 0 then 8 else Nat.size (m - 1) % 8
  BitVec.ofNat 8 (2 ^ b - 1)

/-- Go's `crypto/rand.Int`: `bytes[0] &= mask`, in place (there is at least one byte when this is executed). -/
def maskTop (m : Nat) : List Byte → List Byte
  | [] => []
  | b :: bs => (b &&& topMask m) :: bs

/-- Where a goroutine is. -/
inductive Pc where
  /-- between calls; the next call has to take the mutex first (lib/utils/rand.go:43, 136) -/
  | idle
  /-- the mutex is held and `read` bytes of the buffer are filled: loop of lines 138-144, or of `io.ReadFull` in
  `crypto/rand.Int` -/
  | reading (c : Call) (buf : List Byte) (read : Nat)
  /-- the mutex is held and the result is known: lines 45 and 145 come next -/
  | unlocking (c : Call) (v : Nat)
deriving DecidableEq

/-- A goroutine: the calls it still has to make, where it is, and how its calls ended. -/
structure Thread where
  todo : List Call
  pc : Pc
  replies : List Reply

/-- The process: is `prgMutex` locked, the generator `bufPrgReader`, and the goroutines. -/
structure State where
  lock : Bool
  src : Buf
  threads : List Thread

/-- lib/utils/rand.go:154-156 `init` and line 39 (`size` is `bufSize`): the start of a process whose goroutines will make
the given calls. -/
def init (ks : Nat → Byte) (size : Nat) (progs : List (List Call)) : State :=
  ⟨false, newBuf size ⟨ks, 0⟩, progs.map fun p => ⟨p, .idle, []⟩⟩

/-- A goroutine's next call begins. `Seed` panics without touching the mutex (lib/utils/rand.go:150-152); the others wait
for the mutex (`none`: blocked). `crypto/rand.Int` panics for a modulus that is not positive, and then line 45 is not
reached: the mutex stays locked. For the modulus 1 it returns 0 without reading. -/
def begin (lock : Bool) (c : Call) (rest : List Call) (th : Thread) : Option (Bool × Thread) :=
  match c with
  | .seed => some (lock, { th with todo := rest, replies := th.replies ++ [.panic] })
  | .u64 =>
    if lock then none else some (true, { th with todo := rest, pc := .reading .u64 (List.replicate 8 0) 0 })
  | .i63 =>
    if lock then none else some (true, { th with todo := rest, pc := .reading .i63 (List.replicate 8 0) 0 })
  | .int m =>
    if lock then none
    else if m ≤ 0 then some (true, { th with todo := rest, replies := th.replies ++ [.panic] })
    else if Nat.size (m.toNat - 1) = 0 then some (true, { th with todo := rest, pc := .unlocking (.int m) 0 })
    else some (true, { th with todo := rest, pc := .reading (.int m) (List.replicate (intBytes m.toNat) 0) 0 })

/-- The buffer of a call is full: lib/utils/rand.go:147 and 127-131, or the test at the end of the loop of
`crypto/rand.Int`, which starts over when the candidate is too large. -/
def finish (c : Call) (buf : List Byte) : Pc :=
  match c with
  | .u64 => .unlocking c (ofLE buf)
  | .i63 => .unlocking c (ofLE buf % 2 ^ 63)
  | .int m =>
    let buf := maskTop m.toNat buf
    if (ofBE buf : Int) < m then .unlocking c (ofBE buf) else .reading c buf 0
  | .seed => .idle

/-- One step of goroutine `i` (`none`: there is no such goroutine, it is done, or it is blocked). -/
def next (s : State) (i : Nat) : Option State :=
  match s.threads[i]? with
  | none => none
  | some th =>
    match th.pc with
    | .idle =>
      match th.todo with
      | [] => none
      | c :: rest => (begin s.lock c rest th).map fun (l, th) => { s with lock := l, threads := s.threads.set i th }
    | .reading c buf read =>
      if read < buf.length then
        let (w, n, src) := s.src.read (buf.drop read)
        some { s with
          src := src, threads := s.threads.set i { th with pc := .reading c (buf.take read ++ w) (read + n) } }
      else some { s with threads := s.threads.set i { th with pc := finish c buf } }
    | .unlocking _ v =>
      some { s with
        lock := false, threads := s.threads.set i { th with pc := .idle, replies := th.replies ++ [.value v] } }

/-- Some goroutine makes a step. -/
def Step (s s' : State) : Prop := ∃ i, next s i = some s'

/-- States a process can get into. -/
inductive Reach (s₀ : State) : State → Prop where
  | start : Reach s₀ s₀
  | step {s s' : State} : Reach s₀ s → Step s s' → Reach s₀ s'

end Verif.RandShared
