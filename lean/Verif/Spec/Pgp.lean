import Verif.Model.Pgp
import Verif.Spec.Point
import Mathlib.Data.List.Sort

/-! # Specification vocabulary for the key database -/

namespace Verif.Pgp.Spec
open Verif.Pgp Res

/-- Byte-wise lexicographic order of strings. -/
def Less (a b : Str) : Prop := a.map BitVec.toNat < b.map BitVec.toNat

/-- `m` is the e-mail under which the entity is filed: that of the primary identity, or else the least non-empty one
among the identities; in lower case. -/
def FiledUnder (lower : Str → Str) (e : Entity) (m : Str) : Prop :=
  (e.primary ≠ [] ∧ m = lower e.primary) ∨
  (e.primary = [] ∧ ∃ x ∈ e.emails, x ≠ [] ∧ (∀ y ∈ e.emails, y ≠ [] → ¬ Less y x) ∧ m = lower x) ∨
  (e.primary = [] ∧ (∀ y ∈ e.emails, y = []) ∧ m = lower [])

/-- The entity may be stored for this e-mail: not revoked, and filed under it. -/
def Eligible (lower : Str → Str) (email : Str) (e : Entity) : Prop :=
  e.revocations = 0 ∧ FiledUnder lower e email

/-- `e` is the first among the most recent entities eligible for the e-mail. -/
def Newest (lower : Str → Str) (es : List Entity) (email : Str) (e : Entity) : Prop :=
  ∃ before after, es = before ++ e :: after ∧ Eligible lower email e ∧
    (∀ x ∈ before, Eligible lower email x → x.created < e.created) ∧
    (∀ x ∈ after, Eligible lower email x → x.created ≤ e.created)

/-- The bucket an identifier belongs to: the first four bytes of its hash, big endian, modulo the number of buckets. -/
def position (hash : Str → List Byte) (n : Nat) (id : Str) : Nat := ofBE ((hash id).take 4) % n

/-- The keys of a bucket, in database order. -/
def bucket (hash : Str → List Byte) (n : Nat) (keys : List Key) (k : Nat) : List Key :=
  keys.filter (fun key => position hash n key.id = k)

/-- The packets of a list of keys, one after the other. -/
def packets (keys : List Key) : List Byte := keys.flatMap (·.packet)

/-- The contents of position `k`: nothing for an empty bucket, else the packets followed by the byte 0x80. -/
def storedBlock (hash : Str → List Byte) (n : Nat) (keys : List Key) (k : Nat) : List Byte :=
  if bucket hash n keys k = [] then [] else packets (bucket hash n keys k) ++ [0x80]

/-- All positions in order. -/
def storedBlocks (hash : Str → List Byte) (n : Nat) (keys : List Key) : List (List Byte) :=
  (List.range n).map (storedBlock hash n keys)

/-- What `sort.Slice` guarantees for the comparison of `sortById`: a rearrangement in descending order of
identifiers. -/
def SortsById (sort : List Key → List Key) : Prop :=
  ∀ l, (sort l).Perm l ∧ (sort l).Pairwise (fun a b => ¬ Less a.id b.id)

/-- What ranging over a Go map guarantees: every entry once. -/
def Enumerates {α : Type _} (order : List α → List α) : Prop := ∀ l, (order l).Perm l

/-- Both loops of the generator enumerate the table. -/
def OrdersFair (o : Orders) : Prop := Enumerates o.first ∧ Enumerates o.second

/-- BLAKE2b-256 and the like: digests of at least four bytes. -/
def HashLong (hash : Str → List Byte) : Prop := ∀ s, 4 ≤ (hash s).length

/-- The OpenPGP parser reads back the packets of loaded keys, one after the other, as the entities they stand for. -/
def Parses (readRing : List Byte → Res (List Entity)) (parse : Key → Entity) (keys : List Key) : Prop :=
  ∀ ks, ks ≠ [] → (∀ k ∈ ks, k ∈ keys) → readRing (packets ks) = ok (ks.map parse)

/-- The entities have the identifiers of their keys as e-mails. -/
def NamedBy (lower : Str → Str) (parse : Key → Entity) (keys : List Key) : Prop :=
  ∀ k ∈ keys, FiledUnder lower (parse k) k.id

/-- The database holds the keys in the positions of their identifiers: after unpadding, a position that is not empty
is the sequence of the packets that belong there. -/
def KeysFiled (hash : Str → List Byte) (db : Database.Bytes) (keys : List Key) : Prop :=
  ∃ blocks, Point.Spec.Stores db blocks ∧ 0 < blocks.length ∧ ∀ p (h : p < blocks.length),
    bucket hash blocks.length keys p ≠ [] →
      Padding.unPadBlock (Point.Spec.zeroExtend db.info.blockSize blocks[p]) =
        ok (packets (bucket hash blocks.length keys p))

end Verif.Pgp.Spec
