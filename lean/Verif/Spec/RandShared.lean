import Verif.Model.RandShared
import Mathlib.Data.Nat.Log
import Mathlib.Data.Fintype.Card
import Mathlib.Data.Fintype.Pi

/-! # Specification: what the draws of concurrent goroutines have to look like -/

namespace Verif.RandShared.Spec
open Verif.Rand

/-- Bytes `start .. start + n - 1` of a stream. -/
def segment (stream : Nat → Byte) (start n : Nat) : List Byte := (List.range n).map fun j => stream (start + j)

/-- Number of bytes needed for one attempt at a draw: 8 for the 64-bit draws; the least number of bytes that can hold all
numbers below the modulus otherwise. -/
def width : Call → Nat
  | .u64 => 8
  | .i63 => 8
  | .int m => Nat.clog 256 m.toNat
  | .seed => 0

/-- The number below `2^b`, `b` least with `m ≤ 2^b`, that some bytes stand for in big-endian order. -/
def candidate (m : Nat) (bytes : List Byte) : Nat := ofBE bytes % 2 ^ Nat.clog 2 m

/-- What an attempt with the given bytes yields: a number, or nothing if it has to be repeated. -/
def attempt : Call → List Byte → Option Nat
  | .u64, bytes => some (ofLE bytes)
  | .i63, bytes => some (ofLE bytes % 2 ^ 63)
  | .int m, bytes => if candidate m.toNat bytes < m.toNat then some (candidate m.toNat bytes) else none
  | .seed, _ => none

/-- What the numbers returned by a call have to be below. -/
def bound : Call → Nat
  | .u64 => 2 ^ 64
  | .i63 => 2 ^ 63
  | .int m => m.toNat
  | .seed => 0

/-- A draw of goroutine `who`: the call made, the part of the stream used, and the number returned. -/
structure Draw where
  who : Nat
  call : Call
  start : Nat
  len : Nat
  value : Nat

/-- The draw used consecutive attempts, returned the first one that yields a number, and read nothing else. -/
def Draw.Right (stream : Nat → Byte) (d : Draw) : Prop :=
  ∃ t, d.len = (t + 1) * width d.call ∧
    (∀ u < t, attempt d.call (segment stream (d.start + u * width d.call) (width d.call)) = none) ∧
    attempt d.call (segment stream (d.start + t * width d.call) (width d.call)) = some d.value

/-- The draws use the stream from position `p` on, one after the other, without gaps and without overlap. -/
def Tiles : Nat → List Draw → Prop
  | _, [] => True
  | p, d :: ds => d.start = p ∧ Tiles (p + d.len) ds

/-- The calls that returned a number, with that number. -/
def answered : List Call → List Reply → List (Call × Nat)
  | c :: cs, .value v :: rs => (c, v) :: answered cs rs
  | _ :: cs, .panic :: rs => answered cs rs
  | _, _ => []

/-- The calls and numbers of the draws of goroutine `i`, in order. -/
def drawnBy (i : Nat) (ds : List Draw) : List (Call × Nat) :=
  (ds.filter fun d => decide (d.who = i)).map fun d => (d.call, d.value)

/-- All goroutines have made all their calls. -/
def Finished (s : State) : Prop := ∀ th ∈ s.threads, th.todo = [] ∧ th.pc = .idle

/-- The call asks for a number from an empty range. -/
def EmptyRange : Call → Prop
  | .int m => m ≤ 0
  | _ => False

/-- How calls may end: `Seed` and requests for a number from an empty range panic, the others return a number. -/
def Ends (c : Call) (r : Reply) : Prop := r = .panic ↔ (c = .seed ∨ EmptyRange c)

/-- Everything the goroutines were told so far is explained by draws that use disjoint parts of the stream without
leaving bytes out. -/
def Explained (stream : Nat → Byte) (progs : List (List Call)) (s : State) : Prop :=
  ∃ ds, Tiles 0 ds ∧ (∀ d ∈ ds, d.Right stream ∧ d.who < progs.length) ∧
    ∀ i prog th, progs[i]? = some prog → s.threads[i]? = some th →
      answered prog th.replies = drawnBy i ds ∧ List.Forall₂ Ends (prog.take th.replies.length) th.replies

/-- An attempt at a call never needs `size` bytes or more at once. -/
def Small (size : Nat) (c : Call) : Prop := width c < size

/-- From every position of the stream on, repeating attempts at the call succeeds eventually. -/
def Lucky (stream : Nat → Byte) (c : Call) : Prop :=
  ∀ p, ∃ t, attempt c (segment stream (p + t * width c) (width c)) ≠ none

/-- The process after the goroutines made their steps in the given order. -/
def play (s : State) : List Nat → Option State
  | [] => some s
  | i :: is => (next s i).bind fun s => play s is

/-- The bytes with the given values. -/
def bytesOf {n : Nat} (f : Fin n → Fin (2 ^ 8)) : List Byte := List.ofFn fun j => BitVec.ofFin (f j)

end Verif.RandShared.Spec
