import Verif.Model.Merkle

/-! # Specification of Merkle trees, independent of the node array -/

namespace Verif.Merkle.Spec
open Res

/-- Digest at leaf position `p`: the record followed by its position, or zeros beyond the last record. -/
def leafAt (H : List Byte → List Byte) (hashLen : Nat) (data : List (List Byte)) (p : Nat) : List Byte :=
  match data[p]? with
  | some d => H (d ++ putLE32 (BitVec.ofNat 32 p))
  | none => List.replicate hashLen 0

/-- Digest of the node at height `l` and position `p` from the left. -/
def node (H : List Byte → List Byte) (hashLen : Nat) (data : List (List Byte)) : Nat → Nat → List Byte
  | 0, p => leafAt H hashLen data p
  | l + 1, p => H (node H hashLen data l (2 * p) ++ node H hashLen data l (2 * p + 1))

/-- Height of the tree: the least `d` with at most `2^d` records. -/
def depth (data : List (List Byte)) : Nat := Nat.clog 2 data.length

/-- Position of the other child of the parent of position `x`. -/
def sibling (x : Nat) : Nat := if x % 2 = 0 then x + 1 else x - 1

/-- Strings hashed when the tree over `data` is built. -/
inductive TreeInput (H : List Byte → List Byte) (hashLen : Nat) (data : List (List Byte)) : List Byte → Prop
  | leaf (p : Nat) (h : p < data.length) : TreeInput H hashLen data (data[p] ++ putLE32 (BitVec.ofNat 32 p))
  | inner (l p : Nat) (h : l < depth data) (hp : p < 2 ^ (depth data - (l + 1))) :
      TreeInput H hashLen data (node H hashLen data l (2 * p) ++ node H hashLen data l (2 * p + 1))

/-- Strings hashed on a path: running digest and position at the current height. -/
def pathInputs (H : List Byte → List Byte) : List (List Byte) → List Byte → Nat → List (List Byte)
  | [], _, _ => []
  | h :: hs, x, pos =>
    let s := if pos % 2 = 0 then x ++ h else h ++ x
    s :: pathInputs H hs (H s) (pos / 2)

/-- Strings hashed by the verification of `data` with `proof`. -/
def verifierInputs (H : List Byte → List Byte) (data : List Byte) (proof : Proof) : List (List Byte) :=
  (data ++ putLE32 proof.index) ::
    pathInputs H proof.hashes (H (data ++ putLE32 proof.index)) proof.index.toNat

/-- The verification exhibits no collision with the tree and no preimage of the padding digest. -/
structure NoCollision (H : List Byte → List Byte) (hashLen : Nat) (data : List (List Byte)) (d : List Byte)
    (proof : Proof) : Prop where
  inj : ∀ a ∈ verifierInputs H d proof, ∀ b, TreeInput H hashLen data b → H a = H b → a = b
  zero : ∀ a ∈ verifierInputs H d proof, H a ≠ List.replicate hashLen 0

end Verif.Merkle.Spec
