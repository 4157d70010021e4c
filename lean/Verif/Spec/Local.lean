import Verif.Model.Local
import Verif.Spec.Lwe
import Verif.Spec.Dh

/-! # Specification vocabulary for the single-machine experiments -/

namespace Verif.Local.Spec
open Res Verif.Lwe

/-- The side of the smallest square with at least `n` places. -/
def side (n : Nat) : Nat := if n = 0 then 0 else Nat.sqrt (n - 1) + 1

/-- The number of amplified repetitions for the three lengths of the paper: 1 KiB, 1 MiB and 1 GiB. -/
def amplification (n : Nat) : Nat := if n = 2 ^ 13 then 7 else if n = 2 ^ 23 then 9 else 15

/-- The sizes of the messages of one LWE retrieval: a digest of 1100 rows, and one row and one column of four-byte numbers for
each of the amplified repetitions. -/
def lweChunk (n : Nat) : Chunk :=
  ⟨1100 * side n * 4, side n * 4 * amplification n, side n * 4 * amplification n⟩

/-- The same for the 128-bit scheme, without amplification. -/
def lwe128Chunk (n : Nat) : Chunk := ⟨4800 * side n * 16, side n * 16, side n * 16⟩

/-- What a length is reported with. -/
def reported (results : List (Nat × List Chunk)) (n : Nat) : Option (List Chunk) :=
  (results.find? (fun e => e.1 = n)).map (·.2)

/-- Coins within the bounds of the scheme: one noise sample per row, each as the sampler returns it, of mean absolute value
below 83 (the sampler's is about 5), and a multiplier away from zero. -/
structure SoundCoins (k rows : Nat) (c : Coins) : Prop where
  length : c.noise.length = rows
  samples : ∀ g ∈ c.noise, |g| ≤ 128
  mean : (c.noise.map Int.natAbs).sum < 83 * rows
  low : 168 * rows < multiplier k c
  high : multiplier k c + 168 * rows < 256 ^ k

/-- The random sources deliver what they are asked for, and the coins are sound. -/
structure Sound {G : Type} (M : Host G) (s : Config) : Prop where
  read : ∀ d n, ∃ l, M.read d n = ok l ∧ l.length = n
  intn : ∀ d j which n, 0 < n → M.intn d j which n < n
  coins : ∀ (d dl : Nat), s.dbBitLengths[d]? = some dl → ∀ j i,
    SoundCoins (if s.primitive = "cmp-vpir-lwe" then 4 else 16) (side dl) (M.coins d j i)

/-- The sizes of the messages of one retrieval over the group: a digest element for each row and the hash of them, an element
for each column, and an element for each row. -/
def dhChunk (elementSize hashSize n : Nat) : Chunk :=
  ⟨side n * elementSize + hashSize, side n * elementSize, side n * elementSize⟩

variable {G : Type} [AddCommGroup G]

/-- No row of the database has the neutral digest (or it is encoded as long as the others). -/
def FullDigests (g : Dh.Grp G) (db : Dh.Elliptic) : Prop :=
  ∀ i, i < db.info.numRows → (g.enc (Dh.Spec.rowSum db (Dh.hashIndexToGroup g) i)).length = db.info.elementSize

/-- The scalars `r` and `t` serve to retrieve bit `k`: the blinding is not neutral, and neither is an element of the query or
of the answer (or it is encoded as long as the others). -/
structure Usable (g : Dh.Grp G) (db : Dh.Elliptic) (r t : Int) (k : Nat) : Prop where
  blinding : t • Dh.hashIndexToGroup g (k % db.info.numColumns) ≠ 0
  query : ∀ j, j < db.info.numColumns →
    (g.enc (Dh.Spec.queryElement (Dh.hashIndexToGroup g) r t (k % db.info.numColumns) j)).length = db.info.elementSize
  answer : ∀ i, i < db.info.numRows →
    (g.enc (Dh.Spec.rowSum db (Dh.Spec.queryElement (Dh.hashIndexToGroup g) r t (k % db.info.numColumns)) i)).length =
      db.info.elementSize

/-- The square database of the random bytes `data`. -/
def bitsDb (elementSize n : Nat) (data : List Byte) : Dh.Elliptic :=
  ⟨data.map (fun b => b &&& 1), ⟨side n, side n, elementSize, [], []⟩⟩

/-- The machine computes in a group with the library's encoding, and the random sources deliver what they are asked for. -/
structure DhMachine (M : Host G) : Prop where
  read : ∀ d n, ∃ l, M.read d n = ok l ∧ l.length = n
  intn : ∀ d j which n, 0 < n → M.intn d j which n < n
  decodes : Dh.Spec.Decodes M.g
  encoding : Dh.Spec.FixedSize M.g M.elementSize ∨ Dh.Spec.ShortIdentity M.g M.elementSize
  hash : ∀ l, (M.blake2 l).length = 32
  cpus : 0 < M.cpus

/-- The blinding of every repetition is not neutral. -/
def Blinded (M : Host G) (s : Config) : Prop :=
  ∀ (d dl : Nat), s.dbBitLengths[d]? = some dl → ∀ j, j < s.repetitions →
    (M.scalars d j).2 • Dh.hashIndexToGroup M.g (M.intn d j 0 (side dl * side dl) % side dl) ≠ 0

end Verif.Local.Spec
