import Verif.Model.Rand

/-! # Specification of the byte streams served by the generators -/

namespace Verif.Rand.Spec

/-- Byte `o` of the internal array of a buffered generator after its `(f+1)`-st refill: every refill xors
fresh key stream into what is already in the array. -/
def refill (ks : Nat → Byte) (size : Nat) : Nat → Nat → Byte
  | 0, o => ks o
  | f + 1, o => refill ks size f o ^^^ ks (size * (f + 1) + o)

/-- Byte `q` of the stream served by a buffered generator with an array of `size` bytes. -/
def served (ks : Nat → Byte) (size q : Nat) : Byte := refill ks size (q / size) (q % size)

/-- Key-stream segments (start, length) that do not overlap, in increasing order. -/
def NonOverlapping (segs : List (Nat × Nat)) : Prop := segs.Pairwise (fun a b => a.1 + a.2 ≤ b.1)

end Verif.Rand.Spec
