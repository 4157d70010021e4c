import Verif.Go
import Mathlib.Data.Rat.Init
import Mathlib.Algebra.Order.Ring.Rat

/-! # Measuring CPU time

lib/monitor/mod.go. Values of type `float64` are rational numbers here, and `fl` is the rounding which the processor applies
to the exact result of every operation and conversion (a parameter; `Spec.Nearest` says what is assumed of it). Not modelled:
infinities, NaN and negative zero, which none of the operations below gives for the readings in question; fused
multiplications and additions, which Go allows on some processors, not on amd64. -/

namespace Verif.Monitor
open Verif

/-- syscall.Rusage as far as lib/monitor/mod.go:44-45 reads it: system and user time, each as seconds and microseconds. -/
structure Rusage where
  stimeSec : Int
  stimeUsec : Int
  utimeSec : Int
  utimeUsec : Int
  deriving DecidableEq

/-- lib/monitor/mod.go:50-52 `iiToMS`. -/
def iiToMS (fl : ℚ → ℚ) (sec usec : Int) : ℚ :=
  fl (fl (fl sec * 1000) + fl (fl usec / 1000))

/-- lib/monitor/mod.go:38-46 `getCPUTime`. The argument is what `syscall.Getrusage` fills in, `none` if it fails; then
`log.Fatalln` ends the program. -/
def getCPUTime (fl : ℚ → ℚ) : Option Rusage → Res ℚ
  | none => .crash "Couldn't get rusage time:"
  | some r => .ok (fl (iiToMS fl r.stimeSec r.stimeUsec + iiToMS fl r.utimeSec r.utimeUsec))

/-- lib/monitor/mod.go:9-11 `Monitor` (called `Meter` here). -/
structure Meter where
  cpuTime : ℚ

/-- lib/monitor/mod.go:13-17 `NewMonitor`. -/
def newMonitor (fl : ℚ → ℚ) (c : Option Rusage) : Res Meter := do
  let t ← getCPUTime fl c
  .ok { cpuTime := t }

/-- lib/monitor/mod.go:19-21 `Reset`. -/
def reset (fl : ℚ → ℚ) (c : Option Rusage) (_m : Meter) : Res Meter := do
  let t ← getCPUTime fl c
  .ok { cpuTime := t }

/-- lib/monitor/mod.go:23-25 `Record`. -/
def record (fl : ℚ → ℚ) (c : Option Rusage) (m : Meter) : Res ℚ := do
  let t ← getCPUTime fl c
  .ok (fl (t - m.cpuTime))

/-- lib/monitor/mod.go:27-31 `RecordAndReset`: the monitor afterwards and the result. -/
def recordAndReset (fl : ℚ → ℚ) (c : Option Rusage) (m : Meter) : Res (Meter × ℚ) := do
  let old := m.cpuTime
  let t ← getCPUTime fl c
  .ok ({ cpuTime := t }, fl (t - old))

/-- lib/monitor/mod.go:33-35 `GetCpuTime`. -/
def getCpuTime (m : Meter) : ℚ := m.cpuTime

/-- The calls a program makes on its monitor. -/
inductive Call where
  | reset
  | record
  | recordAndReset
  | getCpuTime
  deriving DecidableEq

/-- One call, lib/monitor/mod.go:19-35: the monitor afterwards and what is returned. -/
def call (fl : ℚ → ℚ) (c : Option Rusage) (m : Meter) : Call → Res (Meter × Option ℚ)
  | .reset => do
    let m ← reset fl c m
    .ok (m, none)
  | .record => do
    let v ← record fl c m
    .ok (m, some v)
  | .recordAndReset => do
    let (m, v) ← recordAndReset fl c m
    .ok (m, some v)
  | .getCpuTime => .ok (m, some (getCpuTime m))

/-- The calls `cs` one after the other, as the loop of simulations/preprocessing.go:38-70 does with its `Reset` and
`RecordAndReset`. `clock k` is what the kernel reports if asked during call number `k`, counted from `k`. The result is what
each call returns. -/
def calls (fl : ℚ → ℚ) (clock : Nat → Option Rusage) : Nat → Meter → List Call → Res (List (Option ℚ))
  | _, _, [] => .ok []
  | k, m, c :: cs => do
    let (m, v) ← call fl (clock k) m c
    let vs ← calls fl clock (k + 1) m cs
    .ok (v :: vs)

/-- A program that creates a monitor (during call number 0) and then makes the calls `cs`, as
simulations/preprocessing.go:36-63. -/
def session (fl : ℚ → ℚ) (clock : Nat → Option Rusage) (cs : List Call) : Res (List (Option ℚ)) := do
  let m ← newMonitor fl (clock 0)
  calls fl clock 1 m cs

end Verif.Monitor
