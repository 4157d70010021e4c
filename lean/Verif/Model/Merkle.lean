import Verif.Go
import Mathlib.Data.Nat.Log

/-! # Model of lib/merkle: tree construction, proofs, verification, proof encoding

BLAKE3 is a parameter `H` (lib/merkle/hash.go:49-54: `Hash(a, b)` is the digest of `a` followed by `b`). -/

namespace Verif.Merkle
open Res

/-- Go `uint64`. -/
abbrev U64 := BitVec 64

/-- lib/merkle/merkletree.go:36-42 `hashFNV1a64`: the FNV-1a checksum of Go's hash/fnv. -/
def fnv1a (data : List Byte) : U64 :=
  data.foldl (fun h b => (h ^^^ b.setWidth 64) * 1099511628211) 14695981039346656037

/-- A Go map from checksums to indices; `mapSet` is `m[k] = v`, `mapGet` is `m[k]`, the length is `len(m)`. -/
abbrev CkMap := List (U64 × Nat)

def mapSet (m : CkMap) (k : U64) (v : Nat) : CkMap := (k, v) :: m.filter (fun e => e.1 ≠ k)

def mapGet (m : CkMap) (k : U64) : Option Nat := (m.find? (fun e => e.1 = k)).map (·.2)

/-- lib/merkle/merkletree.go:25-34 `MerkleTree` (the hash is a parameter of the functions). -/
structure Tree where
  data : CkMap
  nodes : List (List Byte)
deriving DecidableEq, Repr

/-- lib/merkle/proof.go:26-29 `Proof`. -/
structure Proof where
  hashes : List (List Byte)
  index : U32
deriving DecidableEq, Repr

/-- lib/merkle/merkletree.go:134-141 `indexToBytes`. -/
def indexToBytes (i : Nat) : Res (List Byte) :=
  if i > 4294967295 then crash "index too big" else ok (putLE32 (BitVec.ofNat 32 i))

/-- `int(math.Ceil(math.Log2(float64(n))))` as in merkletree.go:61,77,93, for `n ≥ 1`, computed exactly (C100
shows that the floating-point evaluation gives the same). -/
def ceilLog2 (n : Nat) : Nat := Nat.clog 2 n

/-- lib/merkle/merkletree.go:101-109: leaves and the checksum map. -/
def leaves (H : List Byte → List Byte) (ck : List Byte → U64) (data : List (List Byte)) (branchesLen : Nat)
    (nodes : List (List Byte)) : Res (List (List Byte) × CkMap) :=
  forLoop data.length (fun i (st : List (List Byte) × CkMap) => do
    let d ← idx data i
    let ib ← indexToBytes i
    let nodes ← setAt st.1 (i + branchesLen) (H (d ++ ib))
    ok (nodes, mapSet st.2 (ck d) i)) (nodes, [])

/-- lib/merkle/merkletree.go:88-126 `NewUsing`; `hashLen` is `hash.HashLength()`, 32 for BLAKE3. `ck` is `fnv1a` in
the code. -/
def newUsing (H : List Byte → List Byte) (hashLen : Nat) (ck : List Byte → U64) (data : List (List Byte)) :
    Res Tree := do
  if data.length = 0 then err "tree must have at least 1 piece of data" else
  let branchesLen := 2 ^ ceilLog2 data.length
  let nodes := List.replicate (branchesLen + data.length + (branchesLen - data.length)) ([] : List Byte)
  let (nodes, md) ← leaves H ck data branchesLen nodes
  -- lines 110-112
  let nodes ← forLoop (nodes.length - (data.length + branchesLen)) (fun k ns =>
    setAt ns (data.length + branchesLen + k) (List.replicate hashLen 0)) nodes
  -- lines 115-117, `i` counts down from branchesLen-1 to 1
  let nodes ← forLoop (branchesLen - 1) (fun k ns => do
    let i := branchesLen - 1 - k
    let l ← idx ns (i * 2)
    let r ← idx ns (i * 2 + 1)
    setAt ns i (H (l ++ r))) nodes
  ok ⟨md, nodes⟩

/-- lib/merkle/merkletree.go:82-84 `New`. -/
def new (H : List Byte → List Byte) (data : List (List Byte)) : Res Tree := newUsing H 32 fnv1a data

/-- lib/merkle/merkletree.go:129-131 `Root`. -/
def root (t : Tree) : Res (List Byte) := idx t.nodes 1

/-- Loop of lib/merkle/merkletree.go:66-69. `fuel` at least `i` is enough, as `i` is halved. -/
def proofLoop (nodes : List (List Byte)) : Nat → Nat → Nat → List (List Byte) → Res (List (List Byte))
  | 0, _, _, hashes => ok hashes
  | fuel + 1, i, cur, hashes =>
    if i > 1 then do
      let h ← idx nodes (i ^^^ 1)
      let hashes ← setAt hashes cur h
      proofLoop nodes fuel (i / 2) (cur + 1) hashes
    else ok hashes

/-- lib/merkle/merkletree.go:54-71 `GenerateProof`; `index + uint32(len(t.nodes)/2)` wraps at 2^32. -/
def generateProof (ck : List Byte → U64) (t : Tree) (data : List Byte) : Res Proof :=
  match mapGet t.data (ck data) with
  | none => err "data not found"
  | some index => do
    let hashes := List.replicate (ceilLog2 t.data.length) ([] : List Byte)
    let i := (index + t.nodes.length / 2) % 2 ^ 32
    let hashes ← proofLoop t.nodes i i 0 hashes
    ok ⟨hashes, BitVec.ofNat 32 index⟩

/-- lib/merkle/merkletree.go:76-78 `EncodedProofLength`. -/
def encodedProofLength (hashLen : Nat) (t : Tree) : Nat := ceilLog2 t.data.length * hashLen + 4 + 4

/-- lib/merkle/proof.go:69-76, one sibling: the running hash and the `uint32` index. -/
def foldHash (H : List Byte → List Byte) (st : List Byte × Nat) (h : List Byte) : List Byte × Nat :=
  (if st.2 % 2 = 0 then H (st.1 ++ h) else H (h ++ st.1), st.2 / 2)

/-- lib/merkle/proof.go:63-78 `generateProofHash`; `proof.Index + (1 << len)` is `uint32` arithmetic. -/
def generateProofHash (H : List Byte → List Byte) (data : List Byte) (proof : Proof) : Res (List Byte) := do
  let ib ← indexToBytes proof.index.toNat
  let index := (proof.index.toNat + 2 ^ proof.hashes.length) % 2 ^ 32
  ok (proof.hashes.foldl (foldHash H) (H (data ++ ib), index)).1

/-- lib/merkle/proof.go:45-61 `VerifyProof`, `VerifyProofUsing`. -/
def verifyProof (H : List Byte → List Byte) (data : List Byte) (proof : Proof) (root : List Byte) : Res Bool := do
  let h ← generateProofHash H data proof
  ok (root == h)

/-- lib/merkle/proof.go:100-126 `EncodeProof`. -/
def encodeProof (p : Proof) : Res (List Byte) := do
  let outLen := 4 + p.hashes.length * 32 + 4
  let out := List.replicate outLen (0 : Byte)
  let out ← copyAt out 0 (putLE32 (BitVec.ofNat 32 p.hashes.length))
  let out ← forLoop p.hashes.length (fun i out => do
    let h ← idx p.hashes i
    -- the slice expression of line 116 is bounds checked, then `copy` fills it
    let _ ← slice out (4 + i * h.length) (4 + (i + 1) * h.length)
    copyAt out (4 + i * h.length) h) out
  copyAt out (out.length - 4) (putLE32 p.index)

/-- lib/merkle/proof.go:80-98 `DecodeProof`. Go allows `p[a:b]` up to the capacity of `p`: `tail` are the bytes that
follow `p` in its backing array. The offsets of line 88 are `uint32`. The allocation of line 86 is assumed to succeed
(up to 2^32 slice headers). -/
def decodeProof (p tail : List Byte) : Res Proof := do
  let b ← slice (p ++ tail) 0 4
  let numHashes ← getLE32 b
  let hashes ← forLoop numHashes.toNat (fun i hs => do
    let h ← slice (p ++ tail) ((4 + 32 * i) % 2 ^ 32) ((4 + 32 * (i + 1)) % 2 ^ 32)
    ok (hs ++ [h])) []
  if p.length < 4 then crash "slice bounds out of range" else
  let index ← getLE32 (p.drop (p.length - 4))
  ok ⟨hashes, index⟩

end Verif.Merkle
