import Verif.Spec.Lwe
import Verif.Spec.Dh

/-! # Specification of what the single-server schemes' servers do with any query -/

namespace Verif.Lwe.Spec
open Verif.Matrix

/-- The number in the four bytes from position `i`, most significant byte first. -/
def number (b : List Byte) (i : Nat) : Nat := ofBE ((b.drop i).take 4)

/-- How matrices of a word size travel after the header of eight bytes: the bytes of a word, and which word stands at a place. -/
structure Format where
  bytes : Nat
  word : List Byte → Nat → Nat

/-- 32-bit words, most significant byte first. -/
def format32 : Format := ⟨4, fun b n => number b (8 + 4 * n)⟩

/-- 128-bit words, least significant byte first. -/
def format128 : Format := ⟨16, fun b n => ofLE ((b.drop (8 + 16 * n)).take 16)⟩

/-- The rows a message announces. -/
def announcedRows (q : List Byte) : Nat := number q 0

/-- The columns a message announces. -/
def announcedColumns (q : List Byte) : Nat := number q 4

/-- How many complete words a message carries. -/
def carried (F : Format) (q : List Byte) : Nat := (q.length - 8) / F.bytes

/-- The header is complete and the announced dimensions can be multiplied with an `R × C` table, none being zero. -/
def Conforms (R C : Nat) (q : List Byte) : Prop :=
  8 ≤ q.length ∧ announcedColumns q = R ∧ 0 < announcedRows q ∧ 0 < R ∧ 0 < C

instance (R C : Nat) (q : List Byte) : Decidable (Conforms R C q) := by unfold Conforms; infer_instance

/-- No matrix of the product has more than 2^31 entries. -/
def Indexable (r R C : Nat) : Prop := r * R ≤ 2 ^ 31 ∧ R * C ≤ 2 ^ 31 ∧ r * C ≤ 2 ^ 31

instance (r R C : Nat) : Decidable (Indexable r R C) := by unfold Indexable; infer_instance

/-- The sum of the words in row `i` of a query for which the bit in the same place of column `j` of the table is set. -/
def selectedSum (word : Nat → Nat) (m : Mat 8) (R i j : Nat) : Nat :=
  ∑ k ∈ Finset.range R, if storedBit m k j = 1 then word (i * R + k) else 0

/-- The message holds an `r × c` matrix with these entries. -/
def Holds (F : Format) (a : List Byte) (r c : Nat) (entry : Nat → Nat → Nat) : Prop :=
  a.length = 8 + F.bytes * (r * c) ∧ announcedRows a = r ∧ announcedColumns a = c ∧
    ∀ i j, i < r → j < c → F.word a (i * c + j) = entry i j

/-- The C code did something the language does not define: it read or wrote outside of an array, or an index overflowed. -/
def Undefined {α : Type} (x : Res α) : Prop :=
  x = Res.crash "undefined behaviour: integer overflow" ∨ x = Res.crash "undefined behaviour: read out of bounds" ∨
    x = Res.crash "undefined behaviour: write out of bounds"

/-- The call panics before the C code is reached. -/
def Panics {α : Type} (x : Res α) : Prop := x.isCrash ∧ ¬ Undefined x

end Verif.Lwe.Spec

namespace Verif.Dh.Spec
open Res

variable {G : Type}

/-- Piece `i` of a message of elements with `n` bytes each. -/
def piece (n : Nat) (q : List Byte) (i : Nat) : List Byte := (q.drop (i * n)).take n

/-- The message consists of the encodings of these elements. -/
def Lists (g : Grp G) (n : Nat) (q : List Byte) (v : List G) : Prop :=
  q.length = v.length * n ∧ ∀ i x, v[i]? = some x → g.dec (piece n q i) = ok x

/-- Every column in which a bit is set has an element. -/
def CoversBits (db : Elliptic) (m : Nat) : Prop :=
  ∀ i j, i < db.info.numRows → j < db.info.numColumns → Bit db i j → j < m

end Verif.Dh.Spec
