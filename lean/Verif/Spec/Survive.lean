import Verif.Spec.Predicate

/-! # Specification vocabulary for the queries that a predicate server answers -/

namespace Verif.Predicate.Spec
open Verif.Fss Verif.Query

/-- The number of bits that a search on e-mail addresses takes from the address of this key; none if the address is shorter
than the prefix or suffix asked for. -/
def emailDepth (i : Info) (ki : KeyInfo) : Option Nat :=
  if i.fromStart ≠ 0 then (if i.fromStart ≤ ki.email.length then some (8 * i.fromStart.toNat) else none)
  else if i.fromEnd ≠ 0 then (if i.fromEnd ≤ ki.email.length then some (8 * i.fromEnd.toNat) else none)
  else some 128

/-- The number of bits at which the key of a query is evaluated for this key of the database; none if it is skipped. -/
def depth (i : Info) (ki : KeyInfo) : Option Nat :=
  if i.and then (if i.avg then emailDepth i ki else (emailDepth i ki).map (32 + ·))
  else if i.target = 0 then emailDepth i ki
  else if i.target = 1 then
    match ki.creation.bin with
    | .ok b => some (8 * b.length)
    | _ => none
  else some 8

/-- A key of a query is large enough to be evaluated at `d` bits with `n` values: a correction word of at least 18 bytes for
each bit, and `n` final words. -/
structure Covers (n : Nat) (k : Key) (d : Nat) : Prop where
  levels : d ≤ k.cw.length
  words : ∀ c ∈ k.cw.take d, 18 ≤ c.length
  final : n ≤ k.finalCW.length

/-- The options of a query are among those that the servers implement. -/
def Supported (i : Info) : Prop := i.sum = false ∧ (i.and = true ∨ i.avg = false ∧ i.target ≤ 2)

/-- The query takes something from e-mail addresses. -/
def AboutEmail (i : Info) : Prop := i.and = true ∨ i.target = 0

/-- The queries that a server with this database answers. -/
structure Answerable (n : Nat) (db : KeyDB) (m : Msg) : Prop where
  supported : Supported m.info
  bounds : AboutEmail m.info → db.keys ≠ [] → 0 ≤ m.info.fromStart ∧ (m.info.fromStart = 0 → 0 ≤ m.info.fromEnd)
  dates : m.info.and = false → m.info.target = 1 → ∀ ki ∈ db.keys, ∃ b, ki.creation.bin = .ok b
  covers : ∀ ki ∈ db.keys, ∀ d, depth m.info ki = some d → Covers n m.key d

end Verif.Predicate.Spec
