import Verif.Model.Simul
import Verif.Spec.Deploy

/-! # Specification vocabulary for the experiments -/

namespace Verif.Simul.Spec
open Res Verif.Cmd Verif.Client Verif.Deploy Verif.Simul

/-- The `i`-th block of `len` bytes. -/
def piece (data : List Byte) (len i : Nat) : List Byte := (data.drop (i * len)).take len

/-- `k` is the number of units of `unit` bits that are needed for `bits` bits. -/
def Needed (bits unit k : Nat) : Prop := ∀ m, bits ≤ m * unit ↔ k ≤ m

/-- `r` is the number of rows of the database: one, or the side of the smallest square with room for all blocks. -/
def Rows (f : ServerFlags) (r : Nat) : Prop :=
  if f.nRows = 1 then r = 1 else ∀ m, f.dbLen / (f.elemBitSize * f.blockLen) ≤ m * m ↔ r ≤ m

/-- The generator stays below the bound it is given. -/
def Bounded (R : MathRand) : Prop := ∀ n st, 0 < n → (R.intn n st).1 < n

/-- All keys of this DPF have a length that depends only on the depth. -/
def KeySize (dpf : Point.Dpf) (size : Nat → Nat) : Prop :=
  ∀ a d k0 k1, dpf.gen a d = ok (k0, k1) → k0.length = size d ∧ k1.length = size d

/-- Bytes sent to `n` servers for one block of a database with this number of columns. -/
def cost (size : Nat → Nat) (n columns : Nat) : Nat :=
  if n = 2 then 2 * size (Point.bitsLen columns) else n * (columns / 8 + 1)

/-- Starting the server program on `n` hosts, which read the numbers 0 to `n` − 1, with the same options. -/
def launch (host : Nat → Host) (config : Nat → List (List Char × Server)) (n : Nat) (f : ServerFlags) :
    Res (List Running) :=
  (List.range n).mapM (fun i => serverMain (host i) (config i) i f)

/-- A letter or digit as in the generated addresses. -/
def Alnum (c : Byte) : Prop := 97 ≤ c.toNat ∧ c.toNat ≤ 122 ∨ 48 ≤ c.toNat ∧ c.toNat ≤ 57

/-- A generated key: an address of 32 letters and digits, a date from 31 December 1999 to 29 November 2021, and one of
five algorithms. -/
def Generated (unix : Int → Query.Time) (k : Predicate.KeyInfo) : Prop :=
  k.email.length = 32 ∧ (∀ c ∈ k.email, Alnum c) ∧
    (∃ s : Int, 946598400 ≤ s ∧ s < 1638230400 ∧ k.creation = unix s) ∧ k.algo.toNat ∈ [1, 16, 17, 18, 19]

/-- The hosts of two predicate servers, with the libraries of the client, drawing the same keys, and in the state that a
repetition of the client with the world `W` meets. -/
structure Counting (gob : Predicate.Msg → List Byte) (W : Predicate.World) (db : Predicate.KeyDB) (host : Nat → Host) :
    Prop where
  bind : ∀ i, i < 2 → ∀ a, (host i).bind a = ok ()
  hash : ∀ i, i < 2 → (host i).queryHash = W.hash
  gob : ∀ i, i < 2 → ∀ m, (host i).ungob (gob m) = ok m
  bounded : ∀ i, i < 2 → Bounded (host i).rand
  keys : ∀ i, i < 2 → createRandomKeysDB (host i).rand (host i).unix 100000 = ok db
  env0 : (host 0).env = W.env0 ∧ (host 0).now = W.now0 ∧ (host 0).buf = W.buf0
  env1 : (host 1).env = W.env1 ∧ (host 1).now = W.now1 ∧ (host 1).buf = W.buf1

end Verif.Simul.Spec
