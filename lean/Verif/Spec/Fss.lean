import Verif.Spec.Field

/-! # Specification of function secret sharing for point functions -/

namespace Verif.Fss.Spec
open Verif.Field.Spec

/-- A family of keyed block ciphers. -/
abbrev Cipher := Nat → List Byte → List Byte

/-- Every member of the family maps 16-byte blocks to 16-byte blocks. -/
def BlockCipher (E : Cipher) : Prop := ∀ i s, s.length = 16 → (E i s).length = 16

/-- The pseudo-random bytes derived from a seed: blocks `E_i(s) xor s`. -/
def stream (E : Cipher) (s : List Byte) (nb : Nat) : List Byte :=
  (List.range nb).flatMap (fun i => List.zipWith (· ^^^ ·) (E i s) s)

/-- None of the 31-bit values taken from the bytes derived from seed `s` equals the modulus. -/
def NoHit (E : Cipher) (n : Nat) (s : List Byte) : Prop :=
  ∀ i, i < n / 4 * 4 → low31 (((stream E s (n / 4)).drop (i * 4)).take 4) ≠ p

instance (E : Cipher) (n : Nat) (s : List Byte) : Decidable (NoHit E n s) := by
  unfold NoHit; infer_instance

/-- The scratch buffer for `n` elements between two operations: `4 n` bytes, zero beyond the last whole
16-byte block. A new instance and every finished operation leave it like this. -/
def BufferReady (n : Nat) (buf : List Byte) : Prop :=
  buf.length = n * 4 ∧ buf.drop (n / 4 * 16) = List.replicate (n * 4 - n / 4 * 16) 0

/-- The point function with value `b` at `a`, as a vector of numbers. -/
def point {α : Type} [DecidableEq α] (a : α) (b : List Nat) (x : α) : List Nat :=
  if x = a then b.map (· % p) else b.map (fun _ => 0)

/-- Sum of two share vectors modulo `p`. -/
def combine (y0 y1 : List U32) : List Nat :=
  List.zipWith (fun u v => (u.toNat + v.toNat) % p) y0 y1

/-- The input with the bit at position 256 replaced by 0. -/
def clear256 (x : List Bool) : List Bool := x.set 256 false

end Verif.Fss.Spec
